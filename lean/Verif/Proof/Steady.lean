import Verif.Proof.Approx
import Verif.Props.Hyperplane
import Verif.Props.BestFirst
/-!
# Numbers stay moderate in `TwoMeans`

`Steady` lists what is needed of an arithmetic.  From finite vectors of moderate size, `Normalize` makes vectors with components of at most
`R` (about three times the root of eight times the length: a few components of almost zero length may be divided by a norm in which they
were lost to underflow), the centroids of `TwoMeans` have components of at most `2*R`, and so the normal vectors of hyperplanes are bounded by `R`.
-/
namespace Annoy

/-- The weight of a centroid after `k` updates (distance/two_means.go:48-50, 72, 84). -/
def meanWeight (N : Num) : Nat → N.W
  | 0 => N.oneW
  | k + 1 => N.addW (meanWeight N k) N.oneW

/-- Arithmetic as in `Approx`, with some more properties of rounding. -/
structure Steady (N : Num) (val : N.V → ℝ) (Fin : N.V → Prop) (u t M : ℝ) : Prop where
  approx : Approx N val Fin u t M
  u0 : 0 ≤ u
  u1 : 2 ^ 20 * u ≤ 1
  t0 : 0 < t
  t1 : 2 ^ 21 * t ≤ 1
  granular : ∀ x, Fin x → 0 < val x → t ≤ val x
  self : ∀ x, Fin x → |val x * val x| ≤ M → 0 ≤ val (N.mul x x)
  sum : ∀ x y, Fin x → Fin y → 0 ≤ val x → 0 ≤ val y → |val x + val y| ≤ M → 0 ≤ val (N.add x y)
  root0 : ∀ x, Fin x → val x = 0 → ¬ 0 < val (N.sqrt x)
  weight : ∀ k, k ≤ 200 → Fin (N.ofW (meanWeight N k)) ∧ |val (N.ofW (meanWeight N k)) - (k + 1)| ≤ 2 * u * (k + 1)
  finite : ∀ x, Fin x → N.Finite x

theorem Vec.dotFrom_append (N : Num) (x y : N.V) : ∀ (as bs : List N.V) (s : N.V), as.length = bs.length →
    Vec.dotFrom N s (as ++ [x]) (bs ++ [y]) = N.add (Vec.dotFrom N s as bs) (N.mul x y)
  | [], [], s, _ => rfl
  | [], _ :: _, _, h => by simp at h
  | _ :: _, [], _, h => by simp at h
  | a :: as, b :: bs, s, h => Vec.dotFrom_append N x y as bs _ (by simpa using h)

theorem dotR_append (as : List ℝ) (x : ℝ) : dotR (as ++ [x]) (as ++ [x]) = dotR as as + x * x := by
  induction as with
  | nil => simp [dotR]
  | cons a as ih =>
    simp only [dotR, List.cons_append, List.zipWith_cons_cons, List.sum_cons] at ih ⊢
    rw [ih]; ring

theorem sq_le_dotR (as : List ℝ) : ∀ x ∈ as, x ^ 2 ≤ dotR as as := by
  induction as with
  | nil => simp
  | cons a as ih =>
    intro x hx
    have h0 := dotR_self_nonneg as
    simp only [dotR, List.zipWith_cons_cons, List.sum_cons] at ih h0 ⊢
    rcases List.mem_cons.1 hx with rfl | hx
    · nlinarith
    · have := ih x hx
      nlinarith [mul_self_nonneg a]

/-- Inner products of bounded vectors. -/
theorem dotAbs_le {X Y : ℝ} : ∀ (as bs : List ℝ), (∀ x ∈ as, |x| ≤ X) → (∀ y ∈ bs, |y| ≤ Y) → 0 ≤ X → 0 ≤ Y →
    dotAbs as bs ≤ as.length * (X * Y)
  | [], bs, _, _, _, _ => by simp [dotAbs]
  | a :: as, [], _, _, hX, hY => by
    simp only [dotAbs, List.zipWith_nil_right, List.sum_nil]
    positivity
  | a :: as, b :: bs, ha, hb, hX, hY => by
    have ih := dotAbs_le as bs (fun x hx => ha x (by simp [hx])) (fun y hy => hb y (by simp [hy])) hX hY
    have h1 : |a * b| ≤ X * Y := by
      rw [abs_mul]
      exact mul_le_mul (ha a (by simp)) (hb b (by simp)) (abs_nonneg _) hX
    simp only [dotAbs, List.zipWith_cons_cons, List.sum_cons, List.length_cons] at ih ⊢
    push_cast
    linarith

section
variable {N : Num} {val : N.V → ℝ} {Fin : N.V → Prop} {u t M : ℝ}

theorem Steady.u_small (K : Steady N val Fin u t M) : u ≤ 1 / 2 ^ 19 := by
  have := K.u1
  have := K.u0
  rw [le_div_iff₀ (by norm_num)]; linarith

theorem Steady.t_small (K : Steady N val Fin u t M) : t ≤ 1 / 2 ^ 20 := by
  have := K.t1
  have := K.t0
  rw [le_div_iff₀ (by norm_num)]; linarith

/-- The computed square of the norm. -/
theorem Steady.dot_self (K : Steady N val Fin u t M) {v : List N.V} (hv : ∀ x ∈ v, Fin x) (hn : 128 * (v.length * u) ≤ 1)
    (hnt : 8 * (v.length * t) ≤ 1) (hS : 3 * dotR (v.map val) (v.map val) + 2 ≤ M) :
    Fin (Vec.dot N v v) ∧
    |val (Vec.dot N v v) - dotR (v.map val) (v.map val)| ≤ dotR (v.map val) (v.map val) / 32 + 4 * (v.length * t) := by
  have hu := K.u_small
  have ht := K.t_small
  have hu0 := K.u0
  have ht0 := K.t0
  obtain ⟨h1, h2⟩ := K.approx.dot K.u0 K.t0.le (by linarith [show (1 : ℝ) / 2 ^ 19 ≤ 1 / 128 by norm_num])
    (by linarith [show (1 : ℝ) / 2 ^ 20 ≤ 1 / 8 by norm_num]) rfl hv hv hn (by linarith) hS (by rw [dotAbs_self])
  refine ⟨h1, h2.trans ?_⟩
  have h0 := dotR_self_nonneg (v.map val)
  generalize dotR (v.map val) (v.map val) = S at *
  have e1 : ((v.length : ℝ) + 3) * u ≤ 1 / 40 := by
    have : (v.length : ℝ) * u ≤ 1 / 128 := by linarith
    have h3 : 3 * u ≤ 1 / 1000 := by linarith [show (1 : ℝ) / 2 ^ 19 ≤ 1 / 3000 by norm_num]
    rw [add_mul]
    linarith [show (1 : ℝ) / 128 + 1 / 1000 ≤ 1 / 40 by norm_num]
  have e2 : ((v.length : ℝ) + 3) * u * S ≤ 1 / 40 * S := mul_le_mul_of_nonneg_right e1 h0
  have e3 : (0 : ℝ) ≤ v.length * t := by positivity
  linarith

/-- It is not negative. -/
theorem Steady.dot_self_nonneg (K : Steady N val Fin u t M) (v : List N.V) (hv : ∀ x ∈ v, Fin x) (hn : 128 * (v.length * u) ≤ 1)
    (hnt : 8 * (v.length * t) ≤ 1) (hS : 3 * dotR (v.map val) (v.map val) + 2 ≤ M) : 0 ≤ val (Vec.dot N v v) := by
  induction v using List.reverseRecOn with
  | nil => exact K.approx.zero.2.ge
  | append_singleton v x ih =>
    rw [List.map_append, List.map_singleton, dotR_append] at hS
    simp only [List.length_append, List.length_singleton, Nat.cast_add, Nat.cast_one] at hn hnt
    have hu0 := K.u0
    have ht0 := K.t0
    have hx2 := mul_self_nonneg (val x)
    have hn' : 128 * ((v.length : ℝ) * u) ≤ 1 := by rw [add_mul] at hn; linarith
    have hnt' : 8 * ((v.length : ℝ) * t) ≤ 1 := by rw [add_mul] at hnt; linarith
    have hS' : 3 * dotR (v.map val) (v.map val) + 2 ≤ M := by linarith
    have h0 := dotR_self_nonneg (v.map val)
    have hv' : ∀ y ∈ v, Fin y := fun y hy => hv y (by simp [hy])
    obtain ⟨f1, b1⟩ := K.dot_self hv' hn' hnt' hS'
    have i1 := ih hv' hn' hnt' hS'
    have hM : |val x * val x| ≤ M := by rw [abs_of_nonneg hx2]; linarith
    obtain ⟨f2, b2⟩ := K.approx.mul x x (hv x (by simp)) (hv x (by simp)) hM
    have i2 := K.self x (hv x (by simp)) hM
    unfold Vec.dot at *
    rw [Vec.dotFrom_append N x x v v _ rfl]
    refine K.sum _ _ f1 f2 i1 i2 ?_
    rw [abs_of_nonneg (add_nonneg i1 i2)]
    rw [abs_of_nonneg hx2] at b2
    have hu := K.u_small
    have ht := K.t_small
    have a1 := (abs_le.1 b1).2
    have a2 := (abs_le.1 b2).2
    have a3 : u * (val x * val x) ≤ 1 / 2 ^ 19 * (val x * val x) := mul_le_mul_of_nonneg_right hu hx2
    have a4 : (1 : ℝ) / 2 ^ 19 * (val x * val x) ≤ 1 * (val x * val x) := mul_le_mul_of_nonneg_right (by norm_num) hx2
    have a5 : t ≤ 1 := ht.trans (by norm_num)
    linarith

/-- The norm, and what dividing by it can do at worst. -/
theorem Steady.norm (K : Steady N val Fin u t M) {v : List N.V} (hv : ∀ x ∈ v, Fin x) (hn : 128 * (v.length * u) ≤ 1)
    (hnt : 8 * (v.length * t) ≤ 1) (hS : 3 * dotR (v.map val) (v.map val) + 2 ≤ M) {R : ℝ} (hR : 1 ≤ R)
    (hR2 : 9 * (2 + 8 * (v.length : ℝ)) ≤ R ^ 2) :
    Fin (Vec.getNorm N v) ∧
    (N.lt N.zero (Vec.getNorm N v) = true → 0 < val (Vec.getNorm N v) ∧ ∀ x ∈ v, |val x| ≤ 2 / 3 * R * val (Vec.getNorm N v)) ∧
    (N.lt N.zero (Vec.getNorm N v) = false → ∀ x ∈ v, |val x| ≤ 1) := by
  obtain ⟨f1, b1⟩ := K.dot_self hv hn hnt hS
  have h0 := K.dot_self_nonneg v hv hn hnt hS
  have hS0 := dotR_self_nonneg (v.map val)
  have hu := K.u_small
  have ht := K.t_small
  have hu0 := K.u0
  have ht0 := K.t0
  have hlen : (0 : ℝ) ≤ v.length := Nat.cast_nonneg _
  have hle : ∀ x ∈ v, (val x) ^ 2 ≤ dotR (v.map val) (v.map val) := fun x hx => sq_le_dotR _ _ (List.mem_map_of_mem hx)
  generalize hSe : dotR (v.map val) (v.map val) = S at *
  unfold Vec.getNorm
  set d := Vec.dot N v v with hd
  obtain ⟨a1, a2⟩ := abs_le.1 b1
  have hdM : val d ≤ M := by
    have : 4 * ((v.length : ℝ) * t) ≤ 1 := by linarith
    linarith
  obtain ⟨f2, b2⟩ := K.approx.sqrt d f1 h0 hdM
  have hlt := K.approx.lt N.zero (N.sqrt d) K.approx.zero.1 f2
  rw [K.approx.zero.2] at hlt
  have hS2 : S ≤ 2 * val d + 8 * (v.length * t) := by
    have : (0 : ℝ) ≤ v.length * t := by positivity
    linarith
  -- the norm is comparable to the root, if that is not zero
  have hpos : 0 < val d → Real.sqrt (val d) / 2 ≤ val (N.sqrt d) := by
    intro hp
    have g := K.granular d f1 hp
    have q1 : 4 * t ≤ Real.sqrt (val d) := by
      apply Real.le_sqrt_of_sq_le
      have : (4 * t) ^ 2 = 16 * t * t := by ring
      rw [this]
      have : 16 * t * t ≤ 1 * t := mul_le_mul_of_nonneg_right (by linarith [show (1 : ℝ) / 2 ^ 20 ≤ 1 / 16 by norm_num]) ht0.le
      linarith
    have q0 := Real.sqrt_nonneg (val d)
    have q2 := (abs_le.1 b2).1
    have q3 : 2 * u * Real.sqrt (val d) ≤ 1 / 4 * Real.sqrt (val d) :=
      mul_le_mul_of_nonneg_right (by linarith [show (1 : ℝ) / 2 ^ 19 ≤ 1 / 8 by norm_num]) q0
    linarith
  refine ⟨f2, fun hl => ?_, fun hl x hx => ?_⟩
  · have hl := hlt.1 hl
    refine ⟨hl, fun x hx => ?_⟩
    have hp : 0 < val d := by
      rcases h0.lt_or_eq with h | h
      · exact h
      · exact absurd hl (K.root0 d f1 h.symm)
    have g := K.granular d f1 hp
    have q1 := hpos hp
    have q0 := Real.sqrt_nonneg (val d)
    have q2 : val d ≤ 4 * val (N.sqrt d) ^ 2 := by
      have e : val d = Real.sqrt (val d) ^ 2 := (Real.sq_sqrt h0).symm
      have : Real.sqrt (val d) ^ 2 ≤ (2 * val (N.sqrt d)) ^ 2 := pow_le_pow_left₀ q0 (by linarith) 2
      rw [← e] at this
      linarith [this]
    have q3 : (val x) ^ 2 ≤ (2 + 8 * (v.length : ℝ)) * val d := by
      have h1 := hle x hx
      have h2 : (v.length : ℝ) * t ≤ v.length * val d := mul_le_mul_of_nonneg_left g hlen
      linarith
    have q4 : (val x) ^ 2 ≤ (2 / 3 * R * val (N.sqrt d)) ^ 2 := by
      have h1 : (2 + 8 * (v.length : ℝ)) * val d ≤ (2 + 8 * (v.length : ℝ)) * (4 * val (N.sqrt d) ^ 2) :=
        mul_le_mul_of_nonneg_left q2 (by positivity)
      have h2 : 9 * (2 + 8 * (v.length : ℝ)) * val (N.sqrt d) ^ 2 ≤ R ^ 2 * val (N.sqrt d) ^ 2 :=
        mul_le_mul_of_nonneg_right hR2 (sq_nonneg _)
      have e : (2 / 3 * R * val (N.sqrt d)) ^ 2 = 4 / 9 * (R ^ 2 * val (N.sqrt d) ^ 2) := by ring
      rw [e]
      linarith
    exact abs_le_of_sq_le_sq q4 (by positivity)
  · have hl : ¬ 0 < val (N.sqrt d) := fun h => by rw [hlt.2 h] at hl; cases hl
    have hz : val d = 0 := by
      rcases h0.lt_or_eq with h | h
      · have := hpos h
        have := Real.sqrt_pos.2 h
        exact absurd (by linarith) hl
      · exact h.symm
    have h1 := hle x hx
    rw [hz] at hS2
    refine abs_le_of_sq_le_sq ?_ zero_le_one
    rw [one_pow]
    linarith

/-- A component divided by the norm. -/
theorem Steady.div_norm (K : Steady N val Fin u t M) {x y : N.V} (hx : Fin x) (hy : Fin y) {R : ℝ} (hR : 1 ≤ R) (hRM : R ≤ M)
    (hp : 0 < val y) (hb : |val x| ≤ 2 / 3 * R * val y) : Fin (N.div x y) ∧ |val (N.div x y)| ≤ R := by
  have hq : |val x / val y| ≤ 2 / 3 * R := by
    rw [abs_div, abs_of_pos hp, div_le_iff₀ hp]
    exact hb
  obtain ⟨h1, h2⟩ := K.approx.div x y hx hy hp.ne' (by linarith)
  refine ⟨h1, ?_⟩
  have hu := K.u_small
  have ht := K.t_small
  have h3 : |val (N.div x y)| ≤ |val (N.div x y) - val x / val y| + |val x / val y| := by
    have := abs_add_le (val (N.div x y) - val x / val y) (val x / val y)
    simpa using this
  have h4 : u * |val x / val y| ≤ 1 / 2 ^ 19 * |val x / val y| := mul_le_mul_of_nonneg_right hu (abs_nonneg _)
  have h5 : (1 : ℝ) / 2 ^ 19 * |val x / val y| ≤ 1 / 12 * |val x / val y| := mul_le_mul_of_nonneg_right (by norm_num) (abs_nonneg _)
  have h6 : (1 : ℝ) / 2 ^ 20 ≤ 1 / 12 := by norm_num
  linarith

/-- What `Normalize` makes. -/
theorem Steady.normalize (K : Steady N val Fin u t M) {v : List N.V} (hv : ∀ x ∈ v, Fin x) (hn : 128 * (v.length * u) ≤ 1)
    (hnt : 8 * (v.length * t) ≤ 1) (hS : 3 * dotR (v.map val) (v.map val) + 2 ≤ M) {R : ℝ} (hR : 1 ≤ R)
    (hR2 : 9 * (2 + 8 * (v.length : ℝ)) ≤ R ^ 2) (hRM : R ≤ M) : ∀ x ∈ Vec.normalize N v, Fin x ∧ |val x| ≤ R := by
  obtain ⟨h1, h2, h3⟩ := K.norm hv hn hnt hS hR hR2
  intro x hx
  unfold Vec.normalize at hx
  dsimp only at hx
  by_cases hl : N.lt N.zero (Vec.getNorm N v) = true
  · rw [if_pos hl] at hx
    obtain ⟨y, hy, rfl⟩ := List.mem_map.1 hx
    obtain ⟨h4, h5⟩ := h2 hl
    exact K.div_norm (hv y hy) h1 hR hRM h4 (h5 y hy)
  · rw [if_neg hl] at hx
    exact ⟨hv x hx, (h3 (by simpa using hl) x hx).trans hR⟩

theorem three_roundings {u : ℝ} (hu0 : 0 ≤ u) (hu : u ≤ 1 / 2 ^ 19) : (1 + u) * (1 + u) * (1 + 2 * u) ≤ 1 + 8 * u := by
  have h0 : u ≤ 1 := hu.trans (by norm_num)
  have h1 : u * u ≤ 1 * u := mul_le_mul_of_nonneg_right h0 hu0
  have h2 : u * u * u ≤ 1 * u * u := mul_le_mul_of_nonneg_right (mul_le_mul_of_nonneg_right h0 hu0) hu0
  have e : (1 + u) * (1 + u) * (1 + 2 * u) = 1 + 4 * u + 5 * (u * u) + 2 * (u * u * u) := by ring
  have h3 : u * u ≤ 1 / 2 ^ 19 * u := mul_le_mul_of_nonneg_right hu hu0
  have h4 : (1 : ℝ) / 2 ^ 19 * u ≤ 1 / 2 * u := mul_le_mul_of_nonneg_right (by norm_num) hu0
  rw [e]
  linarith

theorem weight_error {u t : ℝ} (hu0 : 0 ≤ u) (ht0 : 0 ≤ t) (hu : u ≤ 1 / 2 ^ 19) (ht : t ≤ 1 / 2 ^ 20) :
    1 + 8 * (u + t) ≤ (1 + 13 * (u + t)) * (1 - 2 * u) := by
  have h1 : 26 * (u + t) * u ≤ 3 * u := by
    have : 26 * (u + t) ≤ 3 := by
      have : (1 : ℝ) / 2 ^ 19 + 1 / 2 ^ 20 ≤ 1 / 26 := by norm_num
      linarith
    exact mul_le_mul_of_nonneg_right this hu0
  have e : (1 + 13 * (u + t)) * (1 - 2 * u) = 1 + 13 * (u + t) - 2 * u - 26 * (u + t) * u := by ring
  rw [e]
  linarith

/-- One component of a centroid is moved towards a normalized vector. -/
theorem Steady.update (K : Steady N val Fin u t M) {a b : N.V} {k : Nat} (hk : k < 200) (ha : Fin a) (hb : Fin b) {R X : ℝ} (hR : 1 ≤ R)
    (hX : R ≤ X) (hXM : 1000 * X ≤ M) (hav : |val a| ≤ X) (hbv : |val b| ≤ R) :
    Fin (N.div (N.add (N.mul a (N.ofW (meanWeight N k))) b) (N.ofW (meanWeight N (k + 1)))) ∧
    |val (N.div (N.add (N.mul a (N.ofW (meanWeight N k))) b) (N.ofW (meanWeight N (k + 1))))| ≤ X * (1 + 16 * (u + t)) := by
  obtain ⟨f1, w1⟩ := K.weight k (by omega)
  obtain ⟨f2, w2⟩ := K.weight (k + 1) (by omega)
  have hu := K.u_small
  have ht := K.t_small
  have hu0 := K.u0
  have ht0 := K.t0
  set p := val (N.ofW (meanWeight N k)) with hp
  set q := val (N.ofW (meanWeight N (k + 1))) with hq
  have hk0 : (0 : ℝ) ≤ k := Nat.cast_nonneg k
  have hk1 : (k : ℝ) ≤ 200 := by exact_mod_cast hk.le
  have hX0 : 0 ≤ X := by linarith
  set n : ℝ := (k : ℝ) + 1 with hn
  have hn1 : 1 ≤ n := by linarith
  have hn2 : n ≤ 201 := by linarith
  push_cast at w2
  rw [show (k : ℝ) + 1 + 1 = n + 1 by rw [hn]] at w2
  obtain ⟨w1a, w1b⟩ := abs_le.1 w1
  obtain ⟨w2a, w2b⟩ := abs_le.1 w2
  have hun : u * n ≤ 1 / 2 ^ 19 * n := mul_le_mul_of_nonneg_right hu (by linarith)
  have hp0 : 0 ≤ p := by
    have : (1 : ℝ) / 2 ^ 19 * n ≤ 1 / 4 * n := mul_le_mul_of_nonneg_right (by norm_num) (by linarith)
    linarith
  have hp1 : p ≤ n * (1 + 2 * u) := by linarith
  have hq1 : (n + 1) * (1 - 2 * u) ≤ q := by linarith
  have hq0 : 0 < q := lt_of_lt_of_le (by
    apply mul_pos (by linarith)
    linarith [show (1 : ℝ) / 2 ^ 19 ≤ 1 / 4 by norm_num]) hq1
  -- the product
  have m0 : |val a * p| ≤ X * (n * (1 + 2 * u)) := by
    rw [abs_mul, abs_of_nonneg hp0]
    exact mul_le_mul hav hp1 hp0 hX0
  have hsm : n * (1 + 2 * u) ≤ 202 := by
    have : n * (2 * u) ≤ 201 * (2 * (1 / 2 ^ 19)) := mul_le_mul hn2 (by linarith) (by linarith) (by norm_num)
    have h3 : (201 : ℝ) * (2 * (1 / 2 ^ 19)) ≤ 1 := by norm_num
    rw [mul_add]; linarith
  have m0' : |val a * p| ≤ X * 202 := m0.trans (mul_le_mul_of_nonneg_left hsm hX0)
  obtain ⟨g1, m1⟩ := K.approx.mul a _ ha f1 (show |val a * p| ≤ M by linarith)
  have r1 : |val (N.mul a (N.ofW (meanWeight N k)))| ≤ (1 + u) * |val a * p| + t := by
    have := abs_add_le (val (N.mul a (N.ofW (meanWeight N k))) - val a * p) (val a * p)
    rw [sub_add_cancel] at this
    rw [← hp] at m1
    linarith
  set z := val (N.mul a (N.ofW (meanWeight N k))) with hz
  have hzb : |z| ≤ X * 203 := by
    have : u * |val a * p| ≤ 1 / 2 ^ 19 * (X * 202) := mul_le_mul hu m0' (abs_nonneg _) (by norm_num)
    have h2 : (1 : ℝ) / 2 ^ 19 * (X * 202) ≤ X * (1 / 2) := by
      rw [show (1 : ℝ) / 2 ^ 19 * (X * 202) = X * (202 / 2 ^ 19) by ring]
      exact mul_le_mul_of_nonneg_left (by norm_num) hX0
    have h3 : t ≤ 1 / 2 := ht.trans (by norm_num)
    linarith
  -- the sum
  have hs0 : |z + val b| ≤ |z| + R := (abs_add_le _ _).trans (by linarith)
  obtain ⟨g2, m2⟩ := K.approx.add _ b g1 hb (show |z + val b| ≤ M by linarith)
  have r2 : |val (N.add (N.mul a (N.ofW (meanWeight N k))) b)| ≤ (1 + u) * (|z| + R) + t := by
    have := abs_add_le (val (N.add (N.mul a (N.ofW (meanWeight N k))) b) - (z + val b)) (z + val b)
    rw [sub_add_cancel] at this
    have h2 : u * |z + val b| ≤ u * (|z| + R) := mul_le_mul_of_nonneg_left hs0 hu0
    rw [← hz] at m2
    linarith
  set y := val (N.add (N.mul a (N.ofW (meanWeight N k))) b) with hy
  -- together
  have hy1 : |y| ≤ X * (n + 1) * (1 + 8 * (u + t)) := by
    have e1 : |z| ≤ (1 + u) * (X * (n * (1 + 2 * u))) + t := r1.trans (by
      have := mul_le_mul_of_nonneg_left m0 (show 0 ≤ 1 + u by linarith)
      linarith)
    have e2 : (1 + u) * (|z| + R) ≤ (1 + u) * ((1 + u) * (X * (n * (1 + 2 * u))) + t + X) :=
      mul_le_mul_of_nonneg_left (by linarith) (by linarith)
    have e3 : (1 + u) * ((1 + u) * (X * (n * (1 + 2 * u))) + t + X) + t =
        X * n * ((1 + u) * (1 + u) * (1 + 2 * u)) + X * (1 + u) + (1 + u) * t + t := by ring
    have e4 : (1 + u) * (1 + u) * (1 + 2 * u) ≤ 1 + 8 * u := three_roundings hu0 hu
    have e5 : X * n * ((1 + u) * (1 + u) * (1 + 2 * u)) ≤ X * n * (1 + 8 * u) := mul_le_mul_of_nonneg_left e4 (by positivity)
    have e6 : (1 + u) * t + t ≤ X * (3 * t) := by
      have h1 : (1 + u) * t ≤ 2 * t := mul_le_mul_of_nonneg_right (by linarith [show (1 : ℝ) / 2 ^ 19 ≤ 1 by norm_num]) ht0.le
      have h2 : 1 * (3 * t) ≤ X * (3 * t) := mul_le_mul_of_nonneg_right (by linarith) (by linarith)
      linarith
    have e7 : X * (n + 1) * (1 + 8 * (u + t)) = X * n * (1 + 8 * u) + X * (1 + u) + X * (3 * t) + (X * (7 * u) + X * (5 * t) + X * n * (8 * t)) := by ring
    have e8 : 0 ≤ X * (7 * u) + X * (5 * t) + X * n * (8 * t) := by positivity
    linarith
  have hsm2 : (1 : ℝ) + 8 * (u + t) ≤ 2 := by
    have : (1 : ℝ) / 2 ^ 19 + 1 / 2 ^ 20 ≤ 1 / 8 := by norm_num
    linarith
  have hqq : |y / q| ≤ X * (1 + 13 * (u + t)) := by
    rw [abs_div, abs_of_pos hq0, div_le_iff₀ hq0]
    refine hy1.trans ?_
    have h1 : X * (1 + 13 * (u + t)) * ((n + 1) * (1 - 2 * u)) ≤ X * (1 + 13 * (u + t)) * q :=
      mul_le_mul_of_nonneg_left hq1 (by positivity)
    refine le_trans ?_ h1
    have h2 : 1 + 8 * (u + t) ≤ (1 + 13 * (u + t)) * (1 - 2 * u) := weight_error hu0 ht0.le hu ht
    have h3 : X * (n + 1) * (1 + 8 * (u + t)) ≤ X * (n + 1) * ((1 + 13 * (u + t)) * (1 - 2 * u)) :=
      mul_le_mul_of_nonneg_left h2 (by positivity)
    refine h3.trans (le_of_eq (by ring))
  have hqX : |y / q| ≤ 2 * X := by
    refine hqq.trans ?_
    have : (1 : ℝ) + 13 * (u + t) ≤ 2 := by
      have : (1 : ℝ) / 2 ^ 19 + 1 / 2 ^ 20 ≤ 1 / 13 := by norm_num
      linarith
    rw [mul_comm (2 : ℝ)]
    exact mul_le_mul_of_nonneg_left this hX0
  obtain ⟨g3, m3⟩ := K.approx.div _ _ g2 f2 (by rw [← hq]; exact hq0.ne') (show |y / q| ≤ M by linarith)
  refine ⟨g3, ?_⟩
  have h1 := abs_add_le (val (N.div (N.add (N.mul a (N.ofW (meanWeight N k))) b) (N.ofW (meanWeight N (k + 1)))) - y / q) (y / q)
  rw [sub_add_cancel] at h1
  rw [← hq, ← hy] at m3
  have h2 : u * |y / q| ≤ u * (2 * X) := mul_le_mul_of_nonneg_left hqX hu0
  have h3 : 1 * t ≤ X * t := mul_le_mul_of_nonneg_right (by linarith) ht0.le
  have h4 : X * (1 + 16 * (u + t)) = X * (1 + 13 * (u + t)) + u * (2 * X) + X * t + (X * u + 2 * (X * t)) := by ring
  have h5 : 0 ≤ X * u + 2 * (X * t) := by positivity
  linarith

/-- The numbers of a list are finite and at most `B`. -/
def Small (val : N.V → ℝ) (Fin : N.V → Prop) (B : ℝ) (l : List N.V) : Prop := ∀ x ∈ l, Fin x ∧ |val x| ≤ B

theorem Small.mono {B B' : ℝ} {l : List N.V} (h : Small val Fin B l) (hB : B ≤ B') : Small val Fin B' l :=
  fun x hx => ⟨(h x hx).1, (h x hx).2.trans hB⟩

theorem Small.dotR_le {B : ℝ} {l : List N.V} (h : Small val Fin B l) (hB : 0 ≤ B) : dotR (l.map val) (l.map val) ≤ l.length * (B * B) := by
  have := dotAbs_le (X := B) (Y := B) (l.map val) (l.map val) (by
      intro x hx
      obtain ⟨y, hy, rfl⟩ := List.mem_map.1 hx
      exact (h y hy).2) (by
      intro x hx
      obtain ⟨y, hy, rfl⟩ := List.mem_map.1 hx
      exact (h y hy).2) hB hB
  rw [dotAbs_self, List.length_map] at this
  exact this

/-- How bytes become numbers: a number whose most significant byte was replaced by zero is tiny. -/
def CutTiny (C : Codec N.V) (val : N.V → ℝ) (Fin : N.V → Prop) : Prop :=
  ∀ l : List Byte, l.length + 1 = C.sz → Fin (C.dec (l ++ [0])) ∧ |val (C.dec (l ++ [0]))| ≤ 1

/-- A vector of which the first bytes were copied. -/
theorem Small.cut {L : Layout} {C : Codec N.V} (hL : L.Ok C.sz) (hC : CutTiny C val Fin) {b m : Bytes} {a a' : Nat} {X : ℝ} (hX : 1 ≤ X)
    (hin : ∀ j, L.offV ≤ j → j < L.f → b (a + j) = m (a' + j)) (hout : ∀ j, L.offV ≤ j → L.f ≤ j → j < L.nodeSize → b (a + j) = 0)
    (hm : Small val Fin X (Node.vec L C m a')) : Small val Fin X (Node.vec L C b a) := by
  intro x hx
  unfold Node.vec at hx hm
  obtain ⟨k, hk, rfl⟩ := List.mem_map.1 hx
  have hk' := List.mem_range.1 hk
  have hsz := hL.sz_pos
  have hend : k * C.sz + C.sz ≤ L.f * C.sz := by rw [← Nat.succ_mul]; exact Nat.mul_le_mul_right _ hk'
  have hsize := hL.size_eq
  by_cases hlast : L.offV + k * C.sz + C.sz ≤ L.f
  · have e : readBytes b (a + L.offV + k * C.sz) C.sz = readBytes m (a' + L.offV + k * C.sz) C.sz := by
      apply readBytes_congr
      intro j hj
      have := hin (L.offV + k * C.sz + j) (by omega) (by omega)
      simpa [Nat.add_assoc] using this
    rw [e]
    exact hm _ (List.mem_map_of_mem hk)
  · obtain ⟨z, hz⟩ : ∃ z, C.sz = z + 1 := ⟨C.sz - 1, by omega⟩
    have e : readBytes b (a + L.offV + k * C.sz) C.sz = readBytes b (a + L.offV + k * C.sz) z ++ [0] := by
      have := hout (L.offV + k * C.sz + z) (by omega) (by omega) (by omega)
      unfold readBytes
      rw [hz, List.range_succ, List.map_append]
      congr 1
      simp only [List.map_cons, List.map_nil]
      rw [← this]
      congr 2
      rw [hz]; omega
    rw [e]
    obtain ⟨h1, h2⟩ := hC (readBytes b (a + L.offV + k * C.sz) z) (by simp [hz])
    exact ⟨h1, h2.trans hX⟩

/-- The numbers involved: vectors of length `n`, items with components of at most `B`, hyperplanes of at most `R`. -/
structure Room (u t M : ℝ) (n : Nat) (B R : ℝ) : Prop where
  n_u : 128 * (n * u) ≤ 1
  n_t : 8 * (n * t) ≤ 1
  B0 : 0 ≤ B
  B_M : 3 * (n * (B * B)) + 2 ≤ M
  R1 : 1 ≤ R
  R2 : 9 * (2 + 8 * (n : ℝ)) ≤ R ^ 2
  R_M : 3 * (n * (5 * R * (5 * R))) + 2 ≤ M
  R_M' : 2000 * R ≤ M

theorem Room.R_le {n : Nat} {B R : ℝ} (P : Room u t M n B R) : R ≤ M := by
  have := P.R1; have := P.R_M'; linarith

/-- `Normalize` of a vector that is not too large. -/
theorem Steady.normalize_small (K : Steady N val Fin u t M) {v : List N.V} {X B R : ℝ} (P : Room u t M v.length B R) (hX : 0 ≤ X)
    (hXM : 3 * (v.length * (X * X)) + 2 ≤ M) (h : Small val Fin X v) : Small val Fin R (Vec.normalize N v) :=
  K.normalize (fun x hx => (h x hx).1) P.n_u P.n_t (by have := h.dotR_le hX; linarith) P.R1 P.R2 P.R_le

theorem Steady.growth (K : Steady N val Fin u t M) {i : Nat} (hi : i ≤ 200) {R : ℝ} (hR : 1 ≤ R) :
    R ≤ R * (1 + 16 * (u + t)) ^ i ∧ R * (1 + 16 * (u + t)) ^ i ≤ 2 * R := by
  have hu0 := K.u0
  have ht0 := K.t0
  have hu1 := K.u1
  have ht1 := K.t1
  have h1 : 1 ≤ (1 + 16 * (u + t)) ^ i := one_le_pow₀ (by linarith)
  have h2 : (1 + 16 * (u + t)) ^ i ≤ 17 / 16 := by
    apply pow_bound (by linarith)
    have hi' : (i : ℝ) ≤ 200 := by exact_mod_cast hi
    have : (i : ℝ) * (16 * (u + t)) ≤ 200 * (16 * (u + t)) := mul_le_mul_of_nonneg_right hi' (by linarith)
    linarith
  have h3 : R * 1 ≤ R * (1 + 16 * (u + t)) ^ i := mul_le_mul_of_nonneg_left h1 (by linarith)
  have h4 : R * (1 + 16 * (u + t)) ^ i ≤ R * (17 / 16) := mul_le_mul_of_nonneg_left h2 (by linarith)
  exact ⟨by linarith, by linarith⟩

/-- The new components of a centroid. -/
theorem Steady.centroid (K : Steady N val Fin u t M) {p vec : List N.V} {B R : ℝ} (P : Room u t M vec.length B R) {i : Nat} (hi : i < 200)
    (hp : Small val Fin (R * (1 + 16 * (u + t)) ^ i) p) (hv : Small val Fin B vec)
    (hpos : N.lt N.zero (Vec.getNorm N vec) = true) :
    Small val Fin (R * (1 + 16 * (u + t)) ^ (i + 1)) (List.zipWith
      (fun a b => N.div (N.add (N.mul a (N.ofW (meanWeight N i))) (N.div b (Vec.getNorm N vec)))
        (N.ofW (N.addW (meanWeight N i) N.oneW))) p vec) := by
  obtain ⟨h1, h2, -⟩ := K.norm (fun x hx => (hv x hx).1) P.n_u P.n_t (by have := hv.dotR_le P.B0; have := P.B_M; linarith) P.R1 P.R2
  obtain ⟨h3, h4⟩ := h2 hpos
  obtain ⟨g1, g2⟩ := K.growth hi.le P.R1
  intro x hx
  obtain ⟨k, hk, rfl⟩ := List.mem_iff_getElem.1 hx
  simp only [List.length_zipWith, lt_min_iff] at hk
  rw [List.getElem_zipWith]
  have ha := hp _ (List.getElem_mem hk.1)
  have hb := List.getElem_mem hk.2
  obtain ⟨d1, d2⟩ := K.div_norm (hv _ hb).1 h1 P.R1 P.R_le h3 (h4 _ hb)
  have := K.update hi ha.1 d1 P.R1 g1 (by have := P.R_M'; linarith) ha.2 d2
  rw [pow_succ, ← mul_assoc]
  exact this

section
variable {L : Layout} {R' : Rng} {C : Codec N.V}

/-- Where the loop of `TwoMeans` is after some steps. -/
def MeansInv (L : Layout) (C : Codec N.V) (val : N.V → ℝ) (Fin : N.V → Prop) (R δ : ℝ) (k : Nat) (st : Bytes × Bytes × N.W × N.W × R'.σ) : Prop :=
  ∃ i j, i ≤ k ∧ j ≤ k ∧ st.2.2.1 = meanWeight N i ∧ st.2.2.2.1 = meanWeight N j ∧
    Small val Fin (R * (1 + δ) ^ i) (Node.vec L C st.1 0) ∧ Small val Fin (R * (1 + δ) ^ j) (Node.vec L C st.2.1 0)

theorem Steady.means_step (K : Steady N val Fin u t M) {B R : ℝ} (P : Room u t M L.f B R) {mem : Bytes} {addrs : List Nat}
    (hitems : ∀ a ∈ addrs, Small val Fin B (Node.vec L C mem a)) {distance : Bytes → Nat → Bytes → Nat → N.V} {initNode : Bytes → Nat → Bytes}
    (hinit : ∀ b, Node.vec L C (initNode b 0) 0 = Node.vec L C b 0) {k : Nat} (hk : k < 200) {st st' : Bytes × Bytes × N.W × N.W × R'.σ}
    (h : MeansInv L C val Fin R (16 * (u + t)) k st) (he : twoMeansStep (L := L) C mem addrs true distance initNode st = .ok st') :
    MeansInv L C val Fin R (16 * (u + t)) (k + 1) st' := by
  obtain ⟨p, q, ic, jc, r⟩ := st
  obtain ⟨i, j, hi, hj, rfl, rfl, hp, hq⟩ := h
  dsimp only at hp hq
  unfold twoMeansStep at he
  simp only [bind, Except.bind] at he
  split at he
  · cases he
  · next y hy =>
    obtain ⟨n, r1⟩ := y
    dsimp only at he
    cases ha : addrs[n]? with
    | none => rw [ha] at he; cases he
    | some nk =>
      rw [ha] at he
      have hv := hitems nk (List.mem_of_getElem? ha)
      have hlen : (Node.vec L C mem nk).length = L.f := Node.vec_length C mem nk
      have P' : Room u t M (Node.vec L C mem nk).length B R := by rw [hlen]; exact P
      simp only [if_true, Bool.true_and] at he
      by_cases hn : N.lt N.zero (Vec.getNorm N (Node.vec L C mem nk)) = true
      · rw [hn] at he
        simp only [Bool.not_true, Bool.false_eq_true, if_false] at he
        split at he
        · cases he
          refine ⟨i + 1, j, by omega, by omega, rfl, rfl, ?_, hq⟩
          rw [hinit, Node.vec_setVec C _ _ _ (by simp)]
          exact K.centroid P' (by omega) hp hv hn
        · split at he
          · cases he
            refine ⟨i, j + 1, by omega, by omega, rfl, rfl, hp, ?_⟩
            rw [hinit, Node.vec_setVec C _ _ _ (by simp)]
            exact K.centroid P' (by omega) hq hv hn
          · cases he
            exact ⟨i, j, by omega, by omega, rfl, rfl, hp, hq⟩
      · have hn : N.lt N.zero (Vec.getNorm N (Node.vec L C mem nk)) = false := by simpa using hn
        rw [hn] at he
        simp only [Bool.not_false, if_true] at he
        cases he
        exact ⟨i, j, by omega, by omega, rfl, rfl, hp, hq⟩

theorem Steady.means_iter (K : Steady N val Fin u t M) {B R : ℝ} (P : Room u t M L.f B R) {mem : Bytes} {addrs : List Nat}
    (hitems : ∀ a ∈ addrs, Small val Fin B (Node.vec L C mem a)) {distance : Bytes → Nat → Bytes → Nat → N.V} {initNode : Bytes → Nat → Bytes}
    (hinit : ∀ b, Node.vec L C (initNode b 0) 0 = Node.vec L C b 0) : ∀ (l k : Nat) {st st' : Bytes × Bytes × N.W × N.W × R'.σ},
    k + l ≤ 200 → MeansInv L C val Fin R (16 * (u + t)) k st →
    iterM (twoMeansStep (L := L) C mem addrs true distance initNode) l st = .ok st' → MeansInv L C val Fin R (16 * (u + t)) (k + l) st'
  | 0, k, st, st', _, h, he => by cases he; exact h
  | l + 1, k, st, st', hk, h, he => by
    unfold iterM at he
    simp only [bind, Except.bind] at he
    split at he
    · cases he
    · next y hy =>
      have := Steady.means_iter K P hitems hinit l (k + 1) (by omega) (K.means_step P hitems hinit (by omega) h hy) he
      rwa [show k + (l + 1) = k + 1 + l by omega]

/-- The centroids of `TwoMeans`. -/
theorem Steady.means (K : Steady N val Fin u t M) (hL : L.Ok C.sz) (hC : CutTiny C val Fin) {B R : ℝ} (P : Room u t M L.f B R) (hB : 1 ≤ B)
    {mem : Bytes} {addrs : List Nat} (hitems : ∀ a ∈ addrs, Small val Fin B (Node.vec L C mem a))
    {distance : Bytes → Nat → Bytes → Nat → N.V} {normalize initNode : Bytes → Nat → Bytes}
    (hinit : ∀ b, Node.vec L C (initNode b 0) 0 = Node.vec L C b 0)
    (hnorm : ∀ b, Node.vec L C (normalize b 0) 0 = Vec.normalize N (Node.vec L C b 0)) {r r' : R'.σ} {p q : Bytes}
    (h : twoMeans (L := L) C mem addrs r true distance normalize initNode = .ok (p, q, r')) :
    Small val Fin (2 * R) (Node.vec L C p 0) ∧ Small val Fin (2 * R) (Node.vec L C q 0) := by
  have start : ∀ a ∈ addrs, Small val Fin (R * (1 + 16 * (u + t)) ^ 0)
      (Node.vec L C (initNode (normalize (Node.copyNode zeros 0 mem a L.f) 0) 0) 0) := by
    intro a ha
    rw [hinit, hnorm, pow_zero, mul_one]
    have hcut : Small val Fin B (Node.vec L C (Node.copyNode zeros 0 mem a L.f) 0) :=
      Small.cut hL hC hB (m := mem) (a' := a) (fun j _ h2 => Node.copyNode_inside zeros 0 mem a L.f j h2)
        (fun j _ h2 _ => by
          rw [Node.copyNode_frame _ _ _ _ _ _ (Or.inr (by omega))]
          rfl) (hitems a ha)
    refine K.normalize_small (X := B) (B := B) ?_ P.B0 ?_ hcut
    · rw [Node.vec_length]; exact P
    · rw [Node.vec_length]; exact P.B_M
  unfold twoMeans at h
  simp only [bind, Except.bind] at h
  split at h
  · cases h
  · next y hy =>
    obtain ⟨i, j, r1⟩ := y
    dsimp only at h
    cases hi : addrs[i]? with
    | none => rw [hi] at h; cases h
    | some ni =>
      cases hj : addrs[j]? with
      | none => rw [hi, hj] at h; cases h
      | some nj =>
        rw [hi, hj] at h
        simp only [if_true] at h
        split at h
        · cases h
        · next z hz =>
          obtain ⟨p', q', ic, jc, r2⟩ := z
          cases h
          obtain ⟨i', j', h1, h2, -, -, h5, h6⟩ := K.means_iter P hitems hinit 200 0 (by omega)
            ⟨0, 0, le_rfl, le_rfl, rfl, rfl, start ni (List.mem_of_getElem? hi), start nj (List.mem_of_getElem? hj)⟩ hz
          exact ⟨h5.mono (K.growth (by omega) P.R1).2, h6.mono (K.growth (by omega) P.R1).2⟩

/-- The difference of the centroids, normalized. -/
theorem Steady.normal (K : Steady N val Fin u t M) {n : Nat} {B R : ℝ} (P : Room u t M n B R) {p q : List N.V} (hp : p.length = n)
    (hq : q.length = n) (h1 : Small val Fin (2 * R) p) (h2 : Small val Fin (2 * R) q) :
    Small val Fin R (Vec.normalize N (List.zipWith N.sub p q)) := by
  have hR := P.R1
  have hlen : (List.zipWith N.sub p q).length = n := by simp [hp, hq]
  refine K.normalize_small (X := 5 * R) (B := B) (by rw [hlen]; exact P) (by linarith) (by rw [hlen]; exact P.R_M) ?_
  intro x hx
  obtain ⟨k, hk, rfl⟩ := List.mem_iff_getElem.1 hx
  simp only [List.length_zipWith, lt_min_iff] at hk
  rw [List.getElem_zipWith]
  obtain ⟨a1, a2⟩ := h1 _ (List.getElem_mem hk.1)
  obtain ⟨b1, b2⟩ := h2 _ (List.getElem_mem hk.2)
  have hs : |val p[k] - val q[k]| ≤ 4 * R := (abs_sub _ _).trans (by linarith)
  obtain ⟨c1, c2⟩ := K.approx.sub _ _ a1 b1 (by have := P.R_M'; linarith)
  refine ⟨c1, ?_⟩
  have h3 := abs_add_le (val (N.sub p[k] q[k]) - (val p[k] - val q[k])) (val p[k] - val q[k])
  rw [sub_add_cancel] at h3
  have h4 : u * |val p[k] - val q[k]| ≤ 1 / 2 ^ 19 * (4 * R) := mul_le_mul K.u_small hs (abs_nonneg _) (by norm_num)
  have h5 : (1 : ℝ) / 2 ^ 19 * (4 * R) ≤ 1 / 2 * R := by
    rw [show (1 : ℝ) / 2 ^ 19 * (4 * R) = 4 / 2 ^ 19 * R by ring]
    exact mul_le_mul_of_nonneg_right (by norm_num) (by linarith)
  have h6 : t ≤ 1 / 2 := K.t_small.trans (by norm_num)
  linarith

theorem Angular.vec_initNode (hL : L.Ok C.sz) (b : Bytes) :
    Node.vec L C (Angular.initNode (N := N) (L := L) C b 0) 0 = Node.vec L C b 0 := by
  apply Node.vec_congr
  intro j hj
  unfold Angular.initNode
  exact Node.setNorm_frame _ _ _ _ _ (Or.inr (by have := hL.norm_fits; have := hL.offV_ge; omega))

theorem Angular.vec_normalize (b : Bytes) :
    Node.vec L C (Angular.normalize (N := N) (L := L) C b 0) 0 = Vec.normalize N (Node.vec L C b 0) := by
  unfold Angular.normalize
  exact Node.vec_setVec C _ _ _ (by rw [normalize_length]; simp)

/-- **The normal vectors of hyperplanes have components of at most `R`.** -/
theorem Steady.createSplit (K : Steady N val Fin u t M) (hL : L.Ok C.sz) (hC : CutTiny C val Fin) {B R : ℝ} (P : Room u t M L.f B R)
    (hB : 1 ≤ B) {mem : Bytes} {addrs : List Nat} (hitems : ∀ a ∈ addrs, Small val Fin B (Node.vec L C mem a)) {r r' : R'.σ} {m m' : Bytes}
    (h : Angular.createSplit (L := L) C mem addrs r m = .ok (m', r')) : Small val Fin R (Node.vec L C m' 0) := by
  obtain ⟨p, q, h1, h2⟩ := C50_create_split C h
  obtain ⟨h3, h4⟩ := K.means hL hC P hB hitems (Angular.vec_initNode hL) Angular.vec_normalize h1
  rw [h2]
  exact K.normal P (Node.vec_length _ _ _) (Node.vec_length _ _ _) h3 h4

/-- The margin of a query that is not too large. -/
theorem Steady.margin (K : Steady N val Fin u t M) {n : Nat} {B R Q : ℝ} (P : Room u t M n B R) (hQ : 0 ≤ Q)
    (hQM : 3 * (n * (R * Q)) + 2 ≤ M) {v q : List N.V} (hv : v.length = n) (hq : q.length = n) (h1 : Small val Fin R v) (h2 : Small val Fin Q q) :
    Fin (Vec.dot N v q) := by
  have hR := P.R1
  have hu := K.u_small
  have ht := K.t_small
  have := dotAbs_le (X := R) (Y := Q) (v.map val) (q.map val) (by
      intro x hx
      obtain ⟨y, hy, rfl⟩ := List.mem_map.1 hx
      exact (h1 y hy).2) (by
      intro x hx
      obtain ⟨y, hy, rfl⟩ := List.mem_map.1 hx
      exact (h2 y hy).2) (by linarith) hQ
  rw [List.length_map] at this
  have hn := P.n_u
  have hnt := P.n_t
  rw [← hv] at hn hnt hQM
  exact (K.approx.dot K.u0 K.t0.le (by linarith [show (1 : ℝ) / 2 ^ 19 ≤ 1 / 128 by norm_num])
    (by linarith [show (1 : ℝ) / 2 ^ 20 ≤ 1 / 8 by norm_num]) (hv.trans hq.symm) (fun x hx => (h1 x hx).1) (fun x hx => (h2 x hx).1)
    hn (by linarith) hQM this).1

end
end
end Annoy
