import Verif.Props.Distance
import Mathlib.Analysis.SpecialFunctions.Sqrt
import Mathlib.Algebra.Order.Ring.Pow
import Mathlib.Tactic.Linarith
import Mathlib.Tactic.FieldSimp
/-!
# Forward error analysis of the angular distance

`Approx` says what is needed of an arithmetic: every operation gives the exact result up to a relative error `u` and an absolute error `t` as
long as the exact result is at most `M`.  Both IEEE formats satisfy it.  The rest of the file is about real numbers.
-/
namespace Annoy

/-- `N` computes like the real numbers up to rounding.  `val` is the value of a number for which `Fin` holds. -/
structure Approx (N : Num) (val : N.V → ℝ) (Fin : N.V → Prop) (u t M : ℝ) : Prop where
  zero : Fin N.zero ∧ val N.zero = 0
  two : Fin N.two ∧ val N.two = 2
  add : ∀ x y, Fin x → Fin y → |val x + val y| ≤ M → Fin (N.add x y) ∧ |val (N.add x y) - (val x + val y)| ≤ u * |val x + val y| + t
  sub : ∀ x y, Fin x → Fin y → |val x - val y| ≤ M → Fin (N.sub x y) ∧ |val (N.sub x y) - (val x - val y)| ≤ u * |val x - val y| + t
  mul : ∀ x y, Fin x → Fin y → |val x * val y| ≤ M → Fin (N.mul x y) ∧ |val (N.mul x y) - val x * val y| ≤ u * |val x * val y| + t
  div : ∀ x y, Fin x → Fin y → val y ≠ 0 → |val x / val y| ≤ M →
    Fin (N.div x y) ∧ |val (N.div x y) - val x / val y| ≤ u * |val x / val y| + t
  sqrt : ∀ x, Fin x → 0 ≤ val x → val x ≤ M →
    Fin (N.sqrt x) ∧ |val (N.sqrt x) - Real.sqrt (val x)| ≤ 2 * u * Real.sqrt (val x) + t
  lt : ∀ x y, Fin x → Fin y → (N.lt x y = true ↔ val x < val y)
  ordinary : ∀ x, Fin x → N.Ordinary x

/-- The inner product of two lists of reals. -/
noncomputable def dotR (a b : List ℝ) : ℝ := (List.zipWith (· * ·) a b).sum
/-- The same of the absolute values. -/
noncomputable def dotAbs (a b : List ℝ) : ℝ := (List.zipWith (fun x y => |x * y|) a b).sum

theorem dotAbs_nonneg : ∀ a b : List ℝ, 0 ≤ dotAbs a b
  | [], _ => by simp [dotAbs]
  | _ :: _, [] => by simp [dotAbs]
  | x :: a, y :: b => by
    have := dotAbs_nonneg a b
    simp only [dotAbs, List.zipWith_cons_cons, List.sum_cons] at this ⊢
    have := abs_nonneg (x * y)
    linarith

theorem dotR_self_nonneg : ∀ a : List ℝ, 0 ≤ dotR a a
  | [] => by simp [dotR]
  | x :: a => by
    have := dotR_self_nonneg a
    simp only [dotR, List.zipWith_cons_cons, List.sum_cons] at this ⊢
    nlinarith

theorem dotAbs_self : ∀ a : List ℝ, dotAbs a a = dotR a a
  | [] => by simp [dotAbs, dotR]
  | x :: a => by
    have := dotAbs_self a
    simp only [dotAbs, dotR, List.zipWith_cons_cons, List.sum_cons] at this ⊢
    rw [this, abs_of_nonneg (mul_self_nonneg x)]

theorem abs_dotR_le : ∀ a b : List ℝ, |dotR a b| ≤ dotAbs a b
  | [], _ => by simp [dotAbs, dotR]
  | _ :: _, [] => by simp [dotAbs, dotR]
  | x :: a, y :: b => by
    have := abs_dotR_le a b
    simp only [dotAbs, dotR, List.zipWith_cons_cons, List.sum_cons] at this ⊢
    exact (abs_add_le _ _).trans (by linarith)

/-- Cauchy and Schwarz. -/
theorem dotAbs_sq_le : ∀ a b : List ℝ, a.length = b.length → dotAbs a b ^ 2 ≤ dotR a a * dotR b b
  | [], [], _ => by simp [dotAbs, dotR]
  | [], _ :: _, h => by simp at h
  | _ :: _, [], h => by simp at h
  | x :: a, y :: b, h => by
    have ih := dotAbs_sq_le a b (by simpa using h)
    have h0 := dotAbs_nonneg a b
    have hP := dotR_self_nonneg a
    have hQ := dotR_self_nonneg b
    simp only [dotAbs, dotR, List.zipWith_cons_cons, List.sum_cons] at ih h0 hP hQ ⊢
    set S := (List.zipWith (fun x y => |x * y|) a b).sum
    set P := (List.zipWith (· * ·) a a).sum
    set Q := (List.zipWith (· * ·) b b).sum
    have key : 2 * S * |x * y| ≤ P * y ^ 2 + Q * x ^ 2 := by
      refine abs_le_of_sq_le_sq' ?_ (by positivity) |>.2
      have e : (2 * S * |x * y|) ^ 2 = 4 * S ^ 2 * (x * y) ^ 2 := by rw [mul_pow, mul_pow, sq_abs]; ring
      rw [e]
      have h1 : 4 * S ^ 2 * (x * y) ^ 2 ≤ 4 * (P * Q) * (x * y) ^ 2 := by
        refine mul_le_mul_of_nonneg_right (by linarith) (sq_nonneg _)
      nlinarith [sq_nonneg (P * y ^ 2 - Q * x ^ 2)]
    have e2 : |x * y| ^ 2 = x ^ 2 * y ^ 2 := by rw [sq_abs]; ring
    nlinarith

/-- Powers of `1 + u`. -/
theorem pow_bound {u : ℝ} {n : Nat} (hu : 0 ≤ u) (hn : 128 * (n * u) ≤ 1) : (1 + u) ^ n ≤ 17 / 16 := by
  by_cases h0 : n = 0
  · subst h0; norm_num
  have hn1 : (1 : ℝ) ≤ n := by exact_mod_cast Nat.one_le_iff_ne_zero.2 h0
  have hu1 : u ≤ 1 / 128 := by nlinarith
  have h1 : 1 + (n : ℝ) * (-u) ≤ (1 + -u) ^ n := one_add_mul_le_pow (by linarith) n
  have h2 : (1 + u) ^ n * (1 + -u) ^ n ≤ 1 := by
    rw [← mul_pow]
    refine pow_le_one₀ (by nlinarith) (by nlinarith)
  have h3 : 0 < (1 + u) ^ n := by positivity
  have h4 : (127 / 128 : ℝ) ≤ (1 + -u) ^ n := by linarith
  nlinarith

/-- One addition in the loop of `Dot`. -/
theorem dot_step {s p s' D0 xy w E A0 A u t : ℝ} (hu : 0 ≤ u) (hu1 : u ≤ 1) (ht : 0 ≤ t) (hw : w = |xy|) (h1 : |s - D0| ≤ E)
    (h2 : |p - xy| ≤ u * w + t) (hD : |D0| ≤ A0) (hA : A0 ≤ A) :
    |s + p| ≤ A0 + E + w + (u * w + t) ∧
    (|s' - (s + p)| ≤ u * |s + p| + t → |s' - (D0 + xy)| ≤ (1 + u) * E + u * A + (2 * u + u ^ 2) * w + 3 * t) := by
  have hsum : |s + p| ≤ A0 + E + w + (u * w + t) := by
    rw [show s + p = (s - D0) + D0 + (p - xy) + xy by ring]
    have h1 := abs_add_le ((s - D0) + D0 + (p - xy)) xy
    have h2 := abs_add_le ((s - D0) + D0) (p - xy)
    have h3 := abs_add_le (s - D0) D0
    rw [← hw] at h1
    linarith
  refine ⟨hsum, fun h3 => ?_⟩
  rw [show s' - (D0 + xy) = (s' - (s + p)) + (s - D0) + (p - xy) by ring]
  have a1 := abs_add_le ((s' - (s + p)) + (s - D0)) (p - xy)
  have a2 := abs_add_le (s' - (s + p)) (s - D0)
  have a3 : u * |s + p| ≤ u * (A0 + E + w + (u * w + t)) := mul_le_mul_of_nonneg_left hsum hu
  have a4 : u * (A0 + E + w + (u * w + t)) = u * A0 + u * E + u * w + u ^ 2 * w + u * t := by ring
  have a5 : u * A0 ≤ u * A := mul_le_mul_of_nonneg_left hA hu
  have a6 : u * t ≤ 1 * t := mul_le_mul_of_nonneg_right hu1 ht
  rw [show (1 + u) * E + u * A + (2 * u + u ^ 2) * w + 3 * t = E + u * E + u * A + 2 * (u * w) + u ^ 2 * w + 3 * t by ring]
  linarith

/-- The error bound stays moderate. -/
theorem dot_moderate {A A0 u t : ℝ} {i n0 : Nat} (hu : 0 ≤ u) (ht : 0 ≤ t) (hn : 128 * (n0 * u) ≤ 1) (hnt : n0 * t ≤ 1 / 8)
    (hu1 : u ≤ 1 / 128) (hA0 : 0 ≤ A0) (hA : A0 ≤ A) (hi : i ≤ n0) :
    (1 + u) ^ i * (i * (u * A + 3 * t) + (2 * u + u ^ 2) * A0) ≤ A / 8 + 1 := by
  have hin : (i : ℝ) ≤ n0 := by exact_mod_cast hi
  have hin0 : (0 : ℝ) ≤ i := Nat.cast_nonneg i
  have hApos : 0 ≤ A := hA0.trans hA
  have hiu : (i : ℝ) * u ≤ n0 * u := mul_le_mul_of_nonneg_right hin hu
  have hit : (i : ℝ) * t ≤ n0 * t := mul_le_mul_of_nonneg_right hin ht
  have hpi : (1 + u) ^ i ≤ 17 / 16 := pow_bound hu (by linarith)
  have h1 : (i : ℝ) * (u * A + 3 * t) ≤ A / 128 + 3 / 8 := by
    rw [show (i : ℝ) * (u * A + 3 * t) = i * u * A + 3 * (i * t) by ring]
    have : (i : ℝ) * u * A ≤ 1 / 128 * A := mul_le_mul_of_nonneg_right (by linarith) hApos
    linarith
  have h2 : (2 * u + u ^ 2) * A0 ≤ A / 32 := by
    have h3 : 2 * u + u ^ 2 ≤ 1 / 32 := by nlinarith
    have : (2 * u + u ^ 2) * A0 ≤ 1 / 32 * A := mul_le_mul h3 hA hA0 (by norm_num)
    linarith
  have h3 : 0 ≤ (i : ℝ) * (u * A + 3 * t) + (2 * u + u ^ 2) * A0 := by positivity
  have h4 : (1 + u) ^ i * (i * (u * A + 3 * t) + (2 * u + u ^ 2) * A0) ≤ 17 / 16 * (A / 128 + 3 / 8 + A / 32) :=
    mul_le_mul hpi (by linarith) h3 (by norm_num)
  linarith

theorem dot_next {E A A0 w u t : ℝ} {i : Nat} (hu : 0 ≤ u) (ht : 0 ≤ t) (hA : 0 ≤ A) (hw : 0 ≤ w)
    (hE : E = (1 + u) ^ i * (i * (u * A + 3 * t) + (2 * u + u ^ 2) * A0)) :
    (1 + u) * E + u * A + (2 * u + u ^ 2) * w + 3 * t ≤
      (1 + u) ^ (i + 1) * ((i + 1 : Nat) * (u * A + 3 * t) + (2 * u + u ^ 2) * (A0 + w)) := by
  have hp1 : 1 ≤ (1 + u) ^ (i + 1) := one_le_pow₀ (by linarith)
  have h6 : 0 ≤ u * A + (2 * u + u ^ 2) * w + 3 * t := by positivity
  have h7 := mul_le_mul_of_nonneg_right hp1 h6
  have h8 : (1 + u) ^ (i + 1) * ((i + 1 : Nat) * (u * A + 3 * t) + (2 * u + u ^ 2) * (A0 + w)) =
      (1 + u) * E + (1 + u) ^ (i + 1) * (u * A + (2 * u + u ^ 2) * w + 3 * t) := by
    rw [hE]; push_cast; ring
  rw [h8]
  linarith

section
variable {N : Num} {val : N.V → ℝ} {Fin : N.V → Prop} {u t M : ℝ}

/-- The loop of `Dot`. -/
theorem Approx.dotFrom (H : Approx N val Fin u t M) (hu : 0 ≤ u) (ht : 0 ≤ t) {n0 : Nat} (hn : 128 * (n0 * u) ≤ 1) (hnt : n0 * t ≤ 1 / 8)
    (hu1 : u ≤ 1 / 128) (ht1 : t ≤ 1 / 8) {A : ℝ} (hA : 3 * A + 2 ≤ M) :
    ∀ (as bs : List N.V) (s : N.V) (i : Nat) (D0 A0 : ℝ), as.length = bs.length → Fin s → (∀ x ∈ as, Fin x) → (∀ x ∈ bs, Fin x) →
      |val s - D0| ≤ (1 + u) ^ i * (i * (u * A + 3 * t) + (2 * u + u ^ 2) * A0) → |D0| ≤ A0 →
      A0 + dotAbs (as.map val) (bs.map val) ≤ A → i + as.length ≤ n0 →
      Fin (Vec.dotFrom N s as bs) ∧ |val (Vec.dotFrom N s as bs) - (D0 + dotR (as.map val) (bs.map val))| ≤
        (1 + u) ^ (i + as.length) * ((i + as.length : Nat) * (u * A + 3 * t) + (2 * u + u ^ 2) * (A0 + dotAbs (as.map val) (bs.map val)))
  | [], [], s, i, D0, A0, _, hs, _, _, he, _, _, _ => by
    refine ⟨hs, ?_⟩
    simpa [Vec.dotFrom, dotR, dotAbs] using he
  | [], _ :: _, _, _, _, _, h, _, _, _, _, _, _, _ => by simp at h
  | _ :: _, [], _, _, _, _, h, _, _, _, _, _, _, _ => by simp at h
  | a :: as, b :: bs, s, i, D0, A0, hl, hs, ha, hb, he, hD, hS, hi => by
    have hrest := dotAbs_nonneg (as.map val) (bs.map val)
    have hA0 : 0 ≤ A0 := (abs_nonneg _).trans hD
    have e1 : dotR ((a :: as).map val) ((b :: bs).map val) = val a * val b + dotR (as.map val) (bs.map val) := by
      simp [dotR]
    have e2 : dotAbs ((a :: as).map val) ((b :: bs).map val) = |val a * val b| + dotAbs (as.map val) (bs.map val) := by
      simp [dotAbs]
    rw [e2] at hS
    set w := |val a * val b| with hw
    have hw0 : 0 ≤ w := abs_nonneg _
    have hAle : A0 + w ≤ A := by linarith
    have hApos : 0 ≤ A := by linarith
    obtain ⟨fp, ep⟩ := H.mul a b (ha a (by simp)) (hb b (by simp)) (by rw [← hw]; linarith)
    rw [← hw] at ep
    set p := N.mul a b with hp
    have hii : i < n0 := by simp at hi; omega
    set E := (1 + u) ^ i * (i * (u * A + 3 * t) + (2 * u + u ^ 2) * A0) with hE
    have hmod : E ≤ A / 8 + 1 := dot_moderate hu ht hn hnt hu1 hA0 (by linarith) hii.le
    obtain ⟨hsum, hst⟩ := dot_step (s' := val (N.add s p)) hu (by linarith) ht hw he ep hD (show A0 ≤ A by linarith)
    have huw : u * w ≤ 1 * w := mul_le_mul_of_nonneg_right (by linarith) hw0
    obtain ⟨fs, es⟩ := H.add s p hs fp (by linarith)
    have hstep := (hst es).trans (dot_next hu ht hApos hw0 hE)
    have hD' : |D0 + val a * val b| ≤ A0 + w := (abs_add_le _ _).trans (by rw [← hw]; linarith)
    have ih := Approx.dotFrom H hu ht hn hnt hu1 ht1 hA as bs (N.add s p) (i + 1) (D0 + val a * val b) (A0 + w)
      (by simpa using hl) fs (fun x hx => ha x (by simp [hx])) (fun x hx => hb x (by simp [hx])) hstep hD' (by linarith)
      (by simp at hi; omega)
    rw [e1, e2, List.length_cons, show i + (as.length + 1) = i + 1 + as.length by omega, ← add_assoc, ← add_assoc]
    exact ih

/-- The error of `Dot`. -/
theorem Approx.dot (H : Approx N val Fin u t M) (hu : 0 ≤ u) (ht : 0 ≤ t) (hu1 : u ≤ 1 / 128) (ht1 : t ≤ 1 / 8) {as bs : List N.V}
    (hl : as.length = bs.length) (ha : ∀ x ∈ as, Fin x) (hb : ∀ x ∈ bs, Fin x)
    (hn : 128 * (as.length * u) ≤ 1) (hnt : as.length * t ≤ 1 / 8) {A : ℝ} (hA : 3 * A + 2 ≤ M)
    (hd : dotAbs (as.map val) (bs.map val) ≤ A) :
    Fin (Vec.dot N as bs) ∧ |val (Vec.dot N as bs) - dotR (as.map val) (bs.map val)| ≤
      17 / 16 * ((as.length + 3) * u * A + 3 * (as.length * t)) := by
  obtain ⟨h1, h2⟩ := Approx.dotFrom H hu ht hn hnt hu1 ht1 hA as bs N.zero 0 0 0 hl H.zero.1 ha hb
    (by rw [H.zero.2]; simp) (by simp) (by linarith) (by omega)
  refine ⟨h1, ?_⟩
  simp only [zero_add] at h2
  refine h2.trans ?_
  have h0 := dotAbs_nonneg (as.map val) (bs.map val)
  have hA0 : 0 ≤ A := h0.trans hd
  have hp := pow_bound hu hn
  refine mul_le_mul hp ?_ (by positivity) (by norm_num)
  have : (2 * u + u ^ 2) * dotAbs (as.map val) (bs.map val) ≤ 3 * u * A := by
    have h3 : 2 * u + u ^ 2 ≤ 3 * u := by nlinarith
    exact mul_le_mul h3 hd h0 (by positivity)
  nlinarith

end

/-- The root of the product of the squared norms. -/
theorem root_error {P Q S p q m r u t e : ℝ} (hS : S ^ 2 = P * Q) (hS0 : 0 < S) (hP : 0 < P) (hQ : 0 < Q)
    (hu : 0 ≤ u) (hu1 : u ≤ 1 / 1000) (he0 : 0 ≤ e) (he : e ≤ 1 / 50) (_ht : 0 ≤ t) (htS : t ≤ u * S) (htS2 : 2 * t ≤ u * S ^ 2)
    (hp : |p - P| ≤ e * P) (hq : |q - Q| ≤ e * Q)
    (hm : |m - p * q| ≤ u * |p * q| + t) (hr : |r - Real.sqrt m| ≤ 2 * u * Real.sqrt m + t) :
    0 < m ∧ m ≤ 2 * S ^ 2 ∧ |r - S| ≤ (e + 5 * u) * S := by
  obtain ⟨p1, p2⟩ := abs_le.1 hp
  obtain ⟨q1, q2⟩ := abs_le.1 hq
  have p1 : (1 - e) * P ≤ p := by linarith
  have p2 : p ≤ (1 + e) * P := by linarith
  have q1 : (1 - e) * Q ≤ q := by linarith
  have q2 : q ≤ (1 + e) * Q := by linarith
  have e1 : 0 < 1 - e := by linarith
  have hp0 : 0 < p := lt_of_lt_of_le (by positivity) p1
  have hq0 : 0 < q := lt_of_lt_of_le (by positivity) q1
  have l1 : (1 - e) ^ 2 * S ^ 2 ≤ p * q := by
    rw [hS, show (1 - e) ^ 2 * (P * Q) = (1 - e) * P * ((1 - e) * Q) by ring]
    exact mul_le_mul p1 q1 (by positivity) hp0.le
  have l2 : p * q ≤ (1 + e) ^ 2 * S ^ 2 := by
    rw [hS, show (1 + e) ^ 2 * (P * Q) = (1 + e) * P * ((1 + e) * Q) by ring]
    exact mul_le_mul p2 q2 hq0.le (by positivity)
  rw [abs_of_pos (mul_pos hp0 hq0)] at hm
  obtain ⟨m1, m2⟩ := abs_le.1 hm
  have hS2 : 0 < S ^ 2 := by positivity
  have l3 : m ≤ (S * ((1 + e) * (1 + u))) ^ 2 := by
    have a1 : (1 + u) * (p * q) ≤ (1 + u) * ((1 + e) ^ 2 * S ^ 2) := mul_le_mul_of_nonneg_left l2 (by linarith)
    have a2 : (S * ((1 + e) * (1 + u))) ^ 2 = (1 + u) * ((1 + e) ^ 2 * S ^ 2) + (u * (1 + u) * (1 + e) ^ 2) * S ^ 2 := by ring
    have a3 : u / 2 * S ^ 2 ≤ (u * (1 + u) * (1 + e) ^ 2) * S ^ 2 := by
      refine mul_le_mul_of_nonneg_right ?_ hS2.le
      have : 1 ≤ (1 + u) * (1 + e) ^ 2 := by nlinarith
      nlinarith
    linarith
  have l4 : (S * ((1 - e) * (1 - 2 * u))) ^ 2 ≤ m := by
    have a1 : (1 - u) * ((1 - e) ^ 2 * S ^ 2) ≤ (1 - u) * (p * q) := mul_le_mul_of_nonneg_left l1 (by linarith)
    have a2 : (S * ((1 - e) * (1 - 2 * u))) ^ 2 = (1 - u) * ((1 - e) ^ 2 * S ^ 2) - ((1 - e) ^ 2 * (u * (3 - 4 * u))) * S ^ 2 := by ring
    have a3 : u / 2 * S ^ 2 ≤ ((1 - e) ^ 2 * (u * (3 - 4 * u))) * S ^ 2 := by
      refine mul_le_mul_of_nonneg_right ?_ hS2.le
      have h1 : 1 / 2 ≤ (1 - e) ^ 2 := by nlinarith
      have h2 : u ≤ u * (3 - 4 * u) := by nlinarith
      have h3 : 1 / 2 * u ≤ (1 - e) ^ 2 * (u * (3 - 4 * u)) := mul_le_mul h1 h2 hu (by positivity)
      linarith
    linarith
  have hlow : 0 < S * ((1 - e) * (1 - 2 * u)) := mul_pos hS0 (mul_pos e1 (by linarith))
  have hm0 : 0 < m := lt_of_lt_of_le (by positivity) l4
  have r1 : Real.sqrt m ≤ S * ((1 + e) * (1 + u)) := by
    rw [Real.sqrt_le_left (by positivity)]; exact l3
  have r2 : S * ((1 - e) * (1 - 2 * u)) ≤ Real.sqrt m := Real.le_sqrt_of_sq_le l4
  obtain ⟨b1, b2⟩ := abs_le.1 hr
  refine ⟨hm0, ?_, ?_⟩
  · refine l3.trans ?_
    rw [mul_pow, mul_comm]
    refine mul_le_mul_of_nonneg_right ?_ hS2.le
    have : (1 + e) * (1 + u) ≤ 7 / 5 := by nlinarith
    have h0 : 0 ≤ (1 + e) * (1 + u) := by positivity
    have h1 := pow_le_pow_left₀ h0 this 2
    norm_num at h1 ⊢
    linarith
  · have c1 : (1 + 2 * u) * Real.sqrt m ≤ (1 + 2 * u) * (S * ((1 + e) * (1 + u))) := mul_le_mul_of_nonneg_left r1 (by linarith)
    have c2 : (1 - 2 * u) * (S * ((1 - e) * (1 - 2 * u))) ≤ (1 - 2 * u) * Real.sqrt m := mul_le_mul_of_nonneg_left r2 (by linarith)
    have c3 : (1 + 2 * u) * (S * ((1 + e) * (1 + u))) ≤ S * (1 + e + 4 * u) := by
      rw [show (1 + 2 * u) * (S * ((1 + e) * (1 + u))) = S * ((1 + 2 * u) * ((1 + e) * (1 + u))) by ring]
      refine mul_le_mul_of_nonneg_left ?_ hS0.le
      have h1 : u * (3 * e + 2 * u + 2 * (u * e)) ≤ u * 1 := by
        refine mul_le_mul_of_nonneg_left ?_ hu
        have : u * e ≤ 1 * e := mul_le_mul_of_nonneg_right (by linarith) he0
        linarith
      rw [show (1 + 2 * u) * ((1 + e) * (1 + u)) = 1 + e + 3 * u + u * (3 * e + 2 * u + 2 * (u * e)) by ring]
      linarith
    have c4 : S * (1 - e - 4 * u) ≤ (1 - 2 * u) * (S * ((1 - e) * (1 - 2 * u))) := by
      rw [show (1 - 2 * u) * (S * ((1 - e) * (1 - 2 * u))) = S * ((1 - 2 * u) * ((1 - e) * (1 - 2 * u))) by ring]
      refine mul_le_mul_of_nonneg_left ?_ hS0.le
      have h1 : 0 ≤ 4 * (u * e) + 4 * (u ^ 2 * (1 - e)) := by positivity
      rw [show (1 - 2 * u) * ((1 - e) * (1 - 2 * u)) = 1 - e - 4 * u + (4 * (u * e) + 4 * (u ^ 2 * (1 - e))) by ring]
      linarith
    rw [abs_le, show (e + 5 * u) * S = S * (1 + e + 4 * u) - S + u * S by ring]
    have c5 : S * (1 - e - 4 * u) = 2 * S - S * (1 + e + 4 * u) := by ring
    constructor <;> linarith

/-- The pure arithmetic of the angular formula. -/
theorem formula_error {P Q D S p q d m r d2 c y u t e : ℝ} (hS : S ^ 2 = P * Q) (hS0 : 0 < S) (hP : 0 < P) (hQ : 0 < Q) (hD : |D| ≤ S)
    (hu : 0 ≤ u) (hu1 : u ≤ 1 / 1000) (he0 : 0 ≤ e) (he : e ≤ 1 / 50) (ht : 0 ≤ t) (ht1 : t ≤ u) (htS : t ≤ u * S) (htS2 : 2 * t ≤ u * S ^ 2)
    (hp : |p - P| ≤ e * P) (hq : |q - Q| ≤ e * Q) (hd : |d - D| ≤ e * S)
    (hm : |m - p * q| ≤ u * |p * q| + t) (hr : |r - Real.sqrt m| ≤ 2 * u * Real.sqrt m + t)
    (hd2 : |d2 - 2 * d| ≤ u * |2 * d| + t) (hc : |c - d2 / r| ≤ u * |d2 / r| + t) (hy : |y - (2 - c)| ≤ u * |2 - c| + t) :
    |y - (2 - 2 * (D / S))| ≤ 17 / 4 * e + 26 * u := by
  obtain ⟨hm0, hmS, hrS⟩ := root_error hS hS0 hP hQ hu hu1 he0 he ht htS htS2 hp hq hm hr
  have hr1 : 39 / 40 * S ≤ r := by
    have := (abs_le.1 hrS).1
    have : (e + 5 * u) * S ≤ 1 / 40 * S := mul_le_mul_of_nonneg_right (by linarith) hS0.le
    linarith
  have hr0 : 0 < r := by linarith
  obtain ⟨X, hX⟩ : ∃ X, X = D / S := ⟨_, rfl⟩
  have hDX : D = X * S := by rw [hX]; field_simp
  have hX1 : |X| ≤ 1 := by rw [hX, abs_div, abs_of_pos hS0]; exact (div_le_one hS0).2 hD
  rw [← hX]
  have hdS : |d| ≤ 51 / 50 * S := by
    have := abs_sub_abs_le_abs_sub d D
    have : e * S ≤ 1 / 50 * S := mul_le_mul_of_nonneg_right he hS0.le
    linarith
  have h1 : |d2 - 2 * D| ≤ (2 * e + 4 * u) * S := by
    rw [show d2 - 2 * D = (d2 - 2 * d) + 2 * (d - D) by ring]
    have a1 := abs_add_le (d2 - 2 * d) (2 * (d - D))
    rw [abs_mul, abs_two] at a1
    rw [abs_mul, abs_two] at hd2
    have : u * (2 * |d|) ≤ u * (2 * (51 / 50 * S)) := mul_le_mul_of_nonneg_left (by linarith) hu
    have huS : 0 ≤ u * S := by positivity
    rw [show (2 * e + 4 * u) * S = 2 * (e * S) + 4 * (u * S) by ring]
    linarith
  have h2 : |d2 / r - 2 * X| ≤ 17 / 4 * e + 15 * u := by
    have e1 : d2 / r - 2 * X = ((d2 - 2 * D) - 2 * X * (r - S)) / r := by
      rw [hDX]; field_simp; ring
    rw [e1, abs_div, abs_of_pos hr0, div_le_iff₀ hr0]
    have a1 := abs_sub (d2 - 2 * D) (2 * X * (r - S))
    have a2 : |2 * X * (r - S)| ≤ 2 * ((e + 5 * u) * S) := by
      rw [abs_mul, abs_mul, abs_two]
      calc 2 * |X| * |r - S| ≤ 2 * 1 * ((e + 5 * u) * S) := by
            refine mul_le_mul (by linarith) hrS (abs_nonneg _) (by norm_num)
        _ = _ := by ring
    have a3 : (17 / 4 * e + 15 * u) * (39 / 40 * S) ≤ (17 / 4 * e + 15 * u) * r := mul_le_mul_of_nonneg_left hr1 (by positivity)
    have heS : 0 ≤ e * S := by positivity
    have huS : 0 ≤ u * S := by positivity
    rw [show (17 / 4 * e + 15 * u) * (39 / 40 * S) = 663 / 160 * (e * S) + 585 / 40 * (u * S) by ring] at a3
    rw [show (e + 5 * u) * S = e * S + 5 * (u * S) by ring] at a2
    rw [show (2 * e + 4 * u) * S = 2 * (e * S) + 4 * (u * S) by ring] at h1
    linarith
  have h3 : |d2 / r| ≤ 9 / 4 := by
    have := abs_sub_abs_le_abs_sub (d2 / r) (2 * X)
    rw [abs_mul, abs_two] at this
    linarith
  have h4 : |c - 2 * X| ≤ 17 / 4 * e + 19 * u := by
    rw [show c - 2 * X = (c - d2 / r) + (d2 / r - 2 * X) by ring]
    have a1 := abs_add_le (c - d2 / r) (d2 / r - 2 * X)
    have a2 : u * |d2 / r| ≤ u * (9 / 4) := mul_le_mul_of_nonneg_left h3 hu
    linarith
  have h5 : |2 - c| ≤ 5 := by
    rw [show 2 - c = 2 - 2 * X - (c - 2 * X) by ring]
    have a1 := abs_sub (2 - 2 * X) (c - 2 * X)
    have a2 := abs_sub 2 (2 * X)
    rw [abs_mul, abs_two] at a2
    linarith
  rw [show y - (2 - 2 * X) = (y - (2 - c)) - (c - 2 * X) by ring]
  have a1 := abs_sub (y - (2 - c)) (c - 2 * X)
  have a2 : u * |2 - c| ≤ u * 5 := mul_le_mul_of_nonneg_left h5 hu
  linarith

/-- What the constants of an arithmetic must satisfy for vectors whose squared norms are between `L` and `B`. -/
structure Scale (u t M L B : ℝ) : Prop where
  u0 : 0 < u
  u1 : u ≤ 1 / 1000
  t0 : 0 ≤ t
  L0 : 0 < L
  L1 : L ≤ 1
  B1 : 1 ≤ B
  norms : t ≤ u ^ 2 * L
  product : 2 * t ≤ u * L ^ 2
  large : 8 * B ^ 2 ≤ M

section
variable {N : Num} {val : N.V → ℝ} {Fin : N.V → Prop} {u t M L B : ℝ}

/-- The end of the computation: from the three inner products to the distance. -/
theorem Approx.formula_core (H : Approx N val Fin u t M) (hu : 0 ≤ u) (hu1 : u ≤ 1 / 1000) (ht : 0 ≤ t) {P Q S D e B : ℝ} {p q d : N.V}
    (hS : S ^ 2 = P * Q) (hS0 : 0 < S) (hP0 : 0 < P) (hQ0 : 0 < Q) (he0 : 0 ≤ e) (he1 : e ≤ 1 / 50) (htu : t ≤ u) (htS : t ≤ u * S)
    (htS2 : 2 * t ≤ u * S ^ 2) (hDS : |D| ≤ S) (hSB : S ≤ B) (hB1 : 1 ≤ B) (hlarge : 8 * B ^ 2 ≤ M)
    (fp : Fin p) (fq : Fin q) (fd : Fin d) (ep : |val p - P| ≤ e * P) (eq : |val q - Q| ≤ e * Q) (ed : |val d - D| ≤ e * S) :
    (Fin (N.mul p q) ∧ 0 < val (N.mul p q) ∧ val (N.mul p q) ≤ M ∧ Fin (N.sqrt (N.mul p q)) ∧ 0 < val (N.sqrt (N.mul p q)) ∧ Fin (N.mul N.two d) ∧
      Fin (N.div (N.mul N.two d) (N.sqrt (N.mul p q)))) ∧ Fin (N.sub N.two (N.div (N.mul N.two d) (N.sqrt (N.mul p q)))) ∧
    |val (N.sub N.two (N.div (N.mul N.two d) (N.sqrt (N.mul p q)))) - (2 - 2 * (D / S))| ≤ 17 / 4 * e + 26 * u := by
  have hS2B : S ^ 2 ≤ B ^ 2 := pow_le_pow_left₀ hS0.le hSB 2
  have hBB : B ≤ B ^ 2 := by rw [sq]; exact le_mul_of_one_le_left (by linarith) hB1
  have hpq : |val p * val q| ≤ M := by
    obtain ⟨p1, p2⟩ := abs_le.1 ep
    obtain ⟨q1, q2⟩ := abs_le.1 eq
    have a1 : |val p| ≤ 2 * P := by
      have : e * P ≤ 1 / 50 * P := mul_le_mul_of_nonneg_right he1 hP0.le
      rw [abs_le]; constructor <;> linarith
    have a2 : |val q| ≤ 2 * Q := by
      have : e * Q ≤ 1 / 50 * Q := mul_le_mul_of_nonneg_right he1 hQ0.le
      rw [abs_le]; constructor <;> linarith
    rw [abs_mul]
    have a3 : |val p| * |val q| ≤ 2 * P * (2 * Q) := mul_le_mul a1 a2 (abs_nonneg _) (by positivity)
    rw [show 2 * P * (2 * Q) = 4 * S ^ 2 by rw [hS]; ring] at a3
    linarith
  obtain ⟨fm, em⟩ := H.mul p q fp fq hpq
  obtain ⟨m0, mS, -⟩ := root_error (r := Real.sqrt (val (N.mul p q))) hS hS0 hP0 hQ0 hu hu1 he0 he1 ht htS htS2 ep eq em (by
    rw [sub_self, abs_zero]; positivity)
  have mM : val (N.mul p q) ≤ M := by linarith
  obtain ⟨fr, er⟩ := H.sqrt (N.mul p q) fm m0.le mM
  obtain ⟨-, -, rS⟩ := root_error hS hS0 hP0 hQ0 hu hu1 he0 he1 ht htS htS2 ep eq em er
  have hr1 : 39 / 40 * S ≤ val (N.sqrt (N.mul p q)) := by
    have := (abs_le.1 rS).1
    have : (e + 5 * u) * S ≤ 1 / 40 * S := mul_le_mul_of_nonneg_right (by linarith) hS0.le
    linarith
  have hr0 : 0 < val (N.sqrt (N.mul p q)) := by linarith
  have hd1 : |val d| ≤ 51 / 50 * S := by
    have := abs_sub_abs_le_abs_sub (val d) D
    have : e * S ≤ 1 / 50 * S := mul_le_mul_of_nonneg_right he1 hS0.le
    linarith
  obtain ⟨f2, e2⟩ := H.two
  obtain ⟨fd2, ed2⟩ := H.mul N.two d f2 fd (by rw [e2, abs_mul, abs_two]; linarith)
  rw [e2] at ed2
  have hd2 : |val (N.mul N.two d)| ≤ 3 * S := by
    have h1 := abs_sub_abs_le_abs_sub (val (N.mul N.two d)) (2 * val d)
    rw [abs_mul, abs_two] at ed2 h1
    have h2 : u * (2 * |val d|) ≤ 1 / 1000 * (2 * (51 / 50 * S)) := mul_le_mul hu1 (by linarith) (by positivity) (by norm_num)
    have h3 : u * S ≤ 1 / 1000 * S := mul_le_mul_of_nonneg_right hu1 hS0.le
    linarith
  have hquot : |val (N.mul N.two d) / val (N.sqrt (N.mul p q))| ≤ 4 := by
    rw [abs_div, abs_of_pos hr0, div_le_iff₀ hr0]
    linarith
  obtain ⟨fc, ec⟩ := H.div (N.mul N.two d) (N.sqrt (N.mul p q)) fd2 fr hr0.ne' (by linarith)
  have hc : |val (N.div (N.mul N.two d) (N.sqrt (N.mul p q)))| ≤ 5 := by
    have h1 := abs_sub_abs_le_abs_sub (val (N.div (N.mul N.two d) (N.sqrt (N.mul p q)))) (val (N.mul N.two d) / val (N.sqrt (N.mul p q)))
    have h2 : u * |val (N.mul N.two d) / val (N.sqrt (N.mul p q))| ≤ 1 / 1000 * 4 := mul_le_mul hu1 hquot (abs_nonneg _) (by norm_num)
    linarith
  obtain ⟨fy, ey⟩ := H.sub N.two (N.div (N.mul N.two d) (N.sqrt (N.mul p q))) f2 fc (by
    rw [e2]
    obtain ⟨c1, c2⟩ := abs_le.1 hc
    rw [abs_le]; constructor <;> linarith)
  rw [e2] at ey
  exact ⟨⟨fm, m0, mM, fr, hr0, fd2, fc⟩, fy, formula_error hS hS0 hP0 hQ0 hDS hu hu1 he0 he1 ht htu htS htS2 ep eq ed em er ed2 ec ey⟩

/-- The parts of the computed angular distance, and how close it is to the real one. -/
theorem Approx.formula_parts (H : Approx N val Fin u t M) (K : Scale u t M L B) {v w : List N.V} (hl : v.length = w.length)
    (hv : ∀ x ∈ v, Fin x) (hw : ∀ x ∈ w, Fin x) (hn : 128 * (v.length * u) ≤ 1)
    (hP1 : L ≤ dotR (v.map val) (v.map val)) (hP2 : dotR (v.map val) (v.map val) ≤ B)
    (hQ1 : L ≤ dotR (w.map val) (w.map val)) (hQ2 : dotR (w.map val) (w.map val) ≤ B) :
    ((Fin (Vec.dot N v v) ∧ |val (Vec.dot N v v) - dotR (v.map val) (v.map val)| ≤ 1 / 50 * dotR (v.map val) (v.map val)) ∧
      (Fin (Vec.dot N w w) ∧ |val (Vec.dot N w w) - dotR (w.map val) (w.map val)| ≤ 1 / 50 * dotR (w.map val) (w.map val)) ∧ Fin (Vec.dot N v w) ∧
      Fin (N.mul (Vec.dot N v v) (Vec.dot N w w)) ∧ 0 < val (N.mul (Vec.dot N v v) (Vec.dot N w w)) ∧ val (N.mul (Vec.dot N v v) (Vec.dot N w w)) ≤ M ∧
      Fin (N.sqrt (N.mul (Vec.dot N v v) (Vec.dot N w w))) ∧ 0 < val (N.sqrt (N.mul (Vec.dot N v v) (Vec.dot N w w))) ∧ Fin (N.mul N.two (Vec.dot N v w)) ∧
      Fin (N.div (N.mul N.two (Vec.dot N v w)) (N.sqrt (N.mul (Vec.dot N v v) (Vec.dot N w w))))) ∧
    Fin (angularFormula N v w) ∧
    |val (angularFormula N v w) - (2 - 2 * (dotR (v.map val) (w.map val) /
      Real.sqrt (dotR (v.map val) (v.map val) * dotR (w.map val) (w.map val))))| ≤ 5 * (v.length + 9) * u := by
  obtain ⟨hu0, hu1, ht, hL0, hL1, hB1, hnorm, hprod, hlarge⟩ := K
  have hu := hu0.le
  set n : ℝ := (v.length : ℝ) with hndef
  have hn0 : 0 ≤ n := Nat.cast_nonneg _
  have htu : t ≤ u ^ 2 := hnorm.trans (by nlinarith [sq_nonneg u])
  have ht1 : t ≤ u := htu.trans (by nlinarith)
  have hnt : n * t ≤ u * L / 128 := by
    have h1 : n * t ≤ n * (u ^ 2 * L) := mul_le_mul_of_nonneg_left hnorm hn0
    have h2 : n * (u ^ 2 * L) = (n * u) * (u * L) := by ring
    have h3 : (n * u) * (u * L) ≤ 1 / 128 * (u * L) := mul_le_mul_of_nonneg_right (by linarith) (by positivity)
    linarith
  have huL : u * L ≤ u := by nlinarith
  have hnt8 : n * t ≤ 1 / 8 := by linarith
  set P := dotR (v.map val) (v.map val) with hP
  set Q := dotR (w.map val) (w.map val) with hQ
  set D := dotR (v.map val) (w.map val) with hD
  have hP0 : 0 < P := lt_of_lt_of_le hL0 hP1
  have hQ0 : 0 < Q := lt_of_lt_of_le hL0 hQ1
  have hPQ : 0 < P * Q := mul_pos hP0 hQ0
  obtain ⟨S, hSdef⟩ : ∃ S, S = Real.sqrt (P * Q) := ⟨_, rfl⟩
  have hS0 : 0 < S := by rw [hSdef]; exact Real.sqrt_pos.2 hPQ
  have hS : S ^ 2 = P * Q := by rw [hSdef]; exact Real.sq_sqrt hPQ.le
  have hSL : L ≤ S := by
    rw [hSdef]
    refine Real.le_sqrt_of_sq_le ?_
    rw [sq]
    exact mul_le_mul hP1 hQ1 hL0.le hP0.le
  have hSB : S ≤ B := by
    rw [hSdef, Real.sqrt_le_left (by linarith), sq]
    exact mul_le_mul hP2 hQ2 hQ0.le (by linarith)
  have hAbs : dotAbs (v.map val) (w.map val) ≤ S := by
    rw [hSdef]
    exact Real.le_sqrt_of_sq_le (dotAbs_sq_le _ _ (by simpa using hl))
  have hDS : |D| ≤ S := (abs_dotR_le _ _).trans hAbs
  rw [← hSdef]
  have hBB : B ≤ B ^ 2 := by rw [sq]; exact le_mul_of_one_le_left (by linarith) hB1
  have hMB : 3 * B + 2 ≤ M := by linarith
  have hwn : (w.length : ℝ) = n := by rw [hndef, hl]
  have ht8 : t ≤ 1 / 8 := by linarith
  have hu128 : u ≤ 1 / 128 := by linarith
  obtain ⟨e, he⟩ : ∃ e, e = 17 / 16 * ((n + 4) * u) := ⟨_, rfl⟩
  have he0 : 0 ≤ e := by rw [he]; positivity
  have he1 : e ≤ 1 / 50 := by rw [he]; nlinarith
  have bound : ∀ A, L ≤ A → 17 / 16 * ((n + 3) * u * A + 3 * (n * t)) ≤ e * A := by
    intro A hA
    have : u * L ≤ u * A := mul_le_mul_of_nonneg_left hA hu
    have hA0 : 0 ≤ u * A := mul_nonneg hu (hL0.le.trans hA)
    rw [he, show 17 / 16 * ((n + 4) * u) * A = 17 / 16 * ((n + 3) * u * A + u * A) by ring]
    linarith
  obtain ⟨fp, ep⟩ := H.dot hu ht hu128 ht8 (as := v) (bs := v) rfl hv hv hn hnt8 (A := P) (by linarith) (dotAbs_self _).le
  obtain ⟨fq, eq⟩ := H.dot hu ht hu128 ht8 (as := w) (bs := w) rfl hw hw (by rw [hwn]; exact hn) (by rw [hwn]; exact hnt8) (A := Q) (by linarith)
    (dotAbs_self _).le
  obtain ⟨fd, ed⟩ := H.dot hu ht hu128 ht8 (as := v) (bs := w) hl hv hw hn hnt8 (A := S) (by linarith) hAbs
  rw [hwn] at eq
  have ep := ep.trans (bound P hP1)
  have eq := eq.trans (bound Q hQ1)
  have ed := ed.trans (bound S hSL)
  rw [← hP] at ep
  rw [← hQ] at eq
  rw [← hD] at ed
  have htS : t ≤ u * S := by
    have h1 : u ^ 2 * L ≤ u * L := by nlinarith [mul_pos hu0 hL0]
    have h2 : u * L ≤ u * S := mul_le_mul_of_nonneg_left hSL hu
    linarith
  have htS2 : 2 * t ≤ u * S ^ 2 := by
    have : L ^ 2 ≤ S ^ 2 := pow_le_pow_left₀ hL0.le hSL 2
    have := mul_le_mul_of_nonneg_left this hu
    linarith
  unfold angularFormula
  obtain ⟨⟨fm, m0, rest⟩, fy, ey⟩ := H.formula_core hu hu1 ht hS hS0 hP0 hQ0 he0 he1 ht1 htS htS2 hDS hSB hB1 hlarge fp fq fd ep eq ed
  rw [if_pos ((H.lt _ _ H.zero.1 fm).2 (by rw [H.zero.2]; exact m0))]
  refine ⟨⟨⟨fp, ep.trans (mul_le_mul_of_nonneg_right he1 hP0.le)⟩, ⟨fq, eq.trans (mul_le_mul_of_nonneg_right he1 hQ0.le)⟩, fd, fm, m0, rest⟩, fy, ey.trans ?_⟩
  rw [he]
  have : 0 ≤ n * u := mul_nonneg hn0 hu
  linarith

/-- **The computed angular distance is close to the real one.** -/
theorem Approx.formula (H : Approx N val Fin u t M) (K : Scale u t M L B) {v w : List N.V} (hl : v.length = w.length)
    (hv : ∀ x ∈ v, Fin x) (hw : ∀ x ∈ w, Fin x) (hn : 128 * (v.length * u) ≤ 1)
    (hP1 : L ≤ dotR (v.map val) (v.map val)) (hP2 : dotR (v.map val) (v.map val) ≤ B)
    (hQ1 : L ≤ dotR (w.map val) (w.map val)) (hQ2 : dotR (w.map val) (w.map val) ≤ B) :
    Fin (angularFormula N v w) ∧
    |val (angularFormula N v w) - (2 - 2 * (dotR (v.map val) (w.map val) /
      Real.sqrt (dotR (v.map val) (v.map val) * dotR (w.map val) (w.map val))))| ≤ 5 * (v.length + 9) * u :=
  (H.formula_parts K hl hv hw hn hP1 hP2 hQ1 hQ2).2

end
end Annoy
