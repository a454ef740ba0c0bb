import Verif.Model.RealNum
import Verif.Model.VecLoops
import Verif.Props.Distance
import Mathlib.Analysis.InnerProductSpace.PiL2
/-!
# Geometry in exact arithmetic (C43, C51)

`pt n v` is the list `v` as a point of the Euclidean space of dimension `n`.  The specification side of the theorems is the inner product, norm and
metric of that space (Mathlib); the code side are the formulas of the model evaluated over the reals.
-/
namespace Annoy
open scoped InnerProductSpace
open RealInnerProductSpace

/-- A list as a point of Euclidean space. -/
noncomputable def pt (n : Nat) (v : List ℝ) : EuclideanSpace ℝ (Fin n) := WithLp.toLp 2 fun i => v.getD i 0

theorem dotFrom_real : ∀ (s : ℝ) (a b : List ℝ), Vec.dotFrom realNum s a b = s + (List.zipWith (· * ·) a b).sum
  | s, [], _ => by cases ‹List ℝ› <;> simp [Vec.dotFrom]
  | s, _ :: _, [] => by simp [Vec.dotFrom]
  | s, x :: a, y :: b => by
    show Vec.dotFrom realNum (s + x * y) a b = _
    rw [dotFrom_real]
    simp only [List.zipWith_cons_cons, List.sum_cons]
    ring

theorem zipSum_eq : ∀ (n : Nat) (a b : List ℝ), a.length = n → b.length = n →
    (List.zipWith (· * ·) a b).sum = ∑ i : Fin n, a.getD i 0 * b.getD i 0
  | 0, a, b, ha, hb => by
    rw [List.length_eq_zero_iff.1 ha]; simp
  | n + 1, [], _, ha, _ => by simp at ha
  | n + 1, _ :: _, [], _, hb => by simp at hb
  | n + 1, x :: a, y :: b, ha, hb => by
    have := zipSum_eq n a b (by simpa using ha) (by simpa using hb)
    rw [Fin.sum_univ_succ]
    simp only [List.zipWith_cons_cons, List.sum_cons, this]
    simp

/-- `Dot` is the inner product. -/
theorem dot_inner {n : Nat} {a b : List ℝ} (ha : a.length = n) (hb : b.length = n) :
    Vec.dot realNum a b = ⟪pt n a, pt n b⟫ := by
  have h : Vec.dot realNum a b = 0 + (List.zipWith (· * ·) a b).sum := dotFrom_real 0 a b
  rw [h, zero_add, zipSum_eq n a b ha hb]
  simp [pt, PiLp.inner_apply, mul_comm]

theorem dot_self {n : Nat} {a : List ℝ} (ha : a.length = n) : Vec.dot realNum a a = ‖pt n a‖ ^ 2 := by
  rw [dot_inner ha ha, real_inner_self_eq_norm_sq]

theorem realNum_mulLaws : realNum.MulLaws where
  mul_comm x y := mul_comm (G := ℝ) x y
  zero_mul x y h := by
    classical
    have h' : (x : ℝ) = 0 := of_decide_eq_true h
    show decide ((0 : ℝ) < x * y) = false
    rw [h', zero_mul]
    simp
  zero_zero := by
    classical
    show decide ((0 : ℝ) < 0) = false
    simp

theorem pt_eq_zero {n : Nat} {a : List ℝ} (ha : a.length = n) : pt n a = 0 ↔ ∀ x ∈ a, x = 0 := by
  constructor
  · intro h x hx
    obtain ⟨i, hi, rfl⟩ := List.getElem_of_mem hx
    have := congrFun (congrArg WithLp.ofLp h) ⟨i, ha ▸ hi⟩
    simpa [pt, hi] using this
  · intro h
    ext i
    have hi : (i : Nat) < a.length := ha ▸ i.2
    simp [pt, hi, h _ (List.getElem_mem hi)]

theorem pt_inj {n : Nat} {a b : List ℝ} (ha : a.length = n) (hb : b.length = n) (h : pt n a = pt n b) : a = b := by
  apply List.ext_getElem (ha.trans hb.symm)
  intro i h1 h2
  have := congrFun (congrArg WithLp.ofLp h) ⟨i, ha ▸ h1⟩
  simpa [pt, h1, h2] using this

/-- The angular distance of the code, with cached norms (or none: `Vec.cosDistance_formula`). -/
noncomputable def angDist (v u : List ℝ) : ℝ := angularFormula realNum v u

theorem angDist_code (v u : List ℝ) {pp qq : ℝ} (hp : pp = Vec.dot realNum v v ∨ pp = 0) (hq : qq = Vec.dot realNum u u ∨ qq = 0) :
    Vec.cosDistance realNum pp qq v u = angDist v u := by
  classical
  exact Vec.cosDistance_formula realNum_mulLaws v u (hp.imp id fun h => (decide_eq_true h : decide (pp = 0) = true))
    (hq.imp id fun h => (decide_eq_true h : decide (qq = 0) = true))

theorem angDist_unit {n : Nat} {v u : List ℝ} (hv : v.length = n) (hu : u.length = n) (hv0 : pt n v ≠ 0) (hu0 : pt n u ≠ 0) :
    angDist v u = ‖(‖pt n v‖⁻¹ • pt n v) - (‖pt n u‖⁻¹ • pt n u)‖ ^ 2 := by
  classical
  have h1 : 0 < ‖pt n v‖ := norm_pos_iff.2 hv0
  have h2 : 0 < ‖pt n u‖ := norm_pos_iff.2 hu0
  have e : angDist v u = if (0 : ℝ) < Vec.dot realNum v v * Vec.dot realNum u u then
      2 - 2 * Vec.dot realNum v u / Real.sqrt (Vec.dot realNum v v * Vec.dot realNum u u) else 2 := by
    show (if decide ((0 : ℝ) < _) = true then _ else _) = _
    simp only [decide_eq_true_eq]
  rw [e, dot_self hv, dot_self hu, dot_inner hv hu, ← mul_pow, if_pos (by positivity), Real.sqrt_sq (by positivity),
    norm_sub_sq_real]
  rw [norm_smul, norm_smul, norm_inv, norm_inv, norm_norm, norm_norm, inv_mul_cancel₀ h1.ne', inv_mul_cancel₀ h2.ne',
    real_inner_smul_left, real_inner_smul_right]
  field_simp
  ring

theorem angDist_zero {n : Nat} {v u : List ℝ} (hv : v.length = n) (hu : u.length = n) (h : pt n v = 0 ∨ pt n u = 0) : angDist v u = 2 := by
  classical
  have e : Vec.dot realNum v v * Vec.dot realNum u u = (0 : ℝ) := by
    rw [dot_self hv, dot_self hu]
    rcases h with h | h <;> simp [h]
  show (if decide ((0 : ℝ) < _) = true then _ else _) = _
  rw [if_neg]
  simp only [decide_eq_true_eq]
  exact not_lt.2 (le_of_eq e)

theorem unit_norm {n : Nat} {x : EuclideanSpace ℝ (Fin n)} (h : x ≠ 0) : ‖‖x‖⁻¹ • x‖ = 1 := by
  rw [norm_smul, norm_inv, norm_norm, inv_mul_cancel₀ (norm_ne_zero_iff.2 h)]

/-! ### C43 -/

/-- **C43**, range: between 0 and 4. -/
theorem C43_range {n : Nat} {v u : List ℝ} (hv : v.length = n) (hu : u.length = n) : 0 ≤ angDist v u ∧ angDist v u ≤ 4 := by
  by_cases h : pt n v = 0 ∨ pt n u = 0
  · rw [angDist_zero hv hu h]; norm_num
  · obtain ⟨h1, h2⟩ := not_or.1 h
    rw [angDist_unit hv hu h1 h2]
    refine ⟨by positivity, ?_⟩
    have := norm_sub_le (‖pt n v‖⁻¹ • pt n v) (‖pt n u‖⁻¹ • pt n u)
    rw [unit_norm h1, unit_norm h2] at this
    have h0 := norm_nonneg ((‖pt n v‖⁻¹ • pt n v) - (‖pt n u‖⁻¹ • pt n u))
    nlinarith

/-- **C43**, symmetry. -/
theorem C43_symmetric (v u : List ℝ) : angDist v u = angDist u v := by
  rw [← angDist_code v u (.inl rfl) (.inl rfl), ← angDist_code u v (.inl rfl) (.inl rfl)]
  exact Vec.cosDistance_comm realNum_mulLaws _ _ _ _

/-- **C43**: the distance of two vectors, neither of them zero, is 0 exactly if one is a positive multiple of the other. -/
theorem C43_same_direction {n : Nat} {v u : List ℝ} (hv : v.length = n) (hu : u.length = n) (hv0 : ∃ x ∈ v, x ≠ 0) (hu0 : ∃ x ∈ u, x ≠ 0) :
    angDist v u = 0 ↔ ∃ t : ℝ, 0 < t ∧ u = v.map (t * ·) := by
  have h1 : pt n v ≠ 0 := fun h => by
    obtain ⟨x, hx, hx0⟩ := hv0; exact hx0 ((pt_eq_zero hv).1 h x hx)
  have h2 : pt n u ≠ 0 := fun h => by
    obtain ⟨x, hx, hx0⟩ := hu0; exact hx0 ((pt_eq_zero hu).1 h x hx)
  have p1 : 0 < ‖pt n v‖ := norm_pos_iff.2 h1
  have p2 : 0 < ‖pt n u‖ := norm_pos_iff.2 h2
  have hmap : ∀ t : ℝ, pt n (v.map (t * ·)) = t • pt n v := by
    intro t
    ext i
    have hi : (i : Nat) < v.length := hv ▸ i.2
    simp [pt, hi]
  rw [angDist_unit hv hu h1 h2, sq_eq_zero_iff, norm_eq_zero, sub_eq_zero]
  constructor
  · intro h
    refine ⟨‖pt n u‖ * ‖pt n v‖⁻¹, by positivity, pt_inj hu (by simpa using hv) ?_⟩
    rw [hmap, mul_smul, h, smul_smul, mul_inv_cancel₀ p2.ne', one_smul]
  · rintro ⟨t, ht, rfl⟩
    rw [hmap, norm_smul, smul_smul]
    congr 1
    rw [Real.norm_of_nonneg ht.le]
    field_simp

/-- **C43**: positive scaling does not matter. -/
theorem C43_scaling {n : Nat} {v u : List ℝ} (hv : v.length = n) (hu : u.length = n) {s t : ℝ} (hs : 0 < s) (ht : 0 < t) :
    angDist (v.map (s * ·)) (u.map (t * ·)) = angDist v u := by
  have hmap : ∀ (w : List ℝ), w.length = n → ∀ t : ℝ, pt n (w.map (t * ·)) = t • pt n w := by
    intro w hw t
    ext i
    have hi : (i : Nat) < w.length := hw ▸ i.2
    simp [pt, hi]
  have hv' : (v.map (s * ·)).length = n := by simpa using hv
  have hu' : (u.map (t * ·)).length = n := by simpa using hu
  by_cases h : pt n v = 0 ∨ pt n u = 0
  · rw [angDist_zero hv hu h, angDist_zero hv' hu' (h.imp (fun h => by rw [hmap v hv, h, smul_zero]) (fun h => by rw [hmap u hu, h, smul_zero]))]
  · obtain ⟨h1, h2⟩ := not_or.1 h
    have key : ∀ (w : List ℝ), w.length = n → ∀ t : ℝ, 0 < t → pt n w ≠ 0 →
        ‖pt n (w.map (t * ·))‖⁻¹ • pt n (w.map (t * ·)) = ‖pt n w‖⁻¹ • pt n w := by
      intro w hw t ht h0
      have p : 0 < ‖pt n w‖ := norm_pos_iff.2 h0
      rw [hmap w hw, norm_smul, smul_smul, Real.norm_of_nonneg ht.le]
      congr 1
      field_simp
    rw [angDist_unit hv hu h1 h2, angDist_unit hv' hu' (by rw [hmap v hv]; exact smul_ne_zero hs.ne' h1)
      (by rw [hmap u hu]; exact smul_ne_zero ht.ne' h2), key v hv s hs h1, key u hu t ht h2]

/-- **C43**: the distance from a zero vector is 2. -/
theorem C43_zero_vector {n : Nat} {v u : List ℝ} (hv : v.length = n) (hu : u.length = n) (h : (∀ x ∈ v, x = 0) ∨ ∀ x ∈ u, x = 0) :
    angDist v u = 2 :=
  angDist_zero hv hu (h.imp (pt_eq_zero hv).2 (pt_eq_zero hu).2)

/-- **C43**: the normalized distance (`NormalizedDistance`, the square root) obeys the triangle inequality, zero vectors included. -/
theorem C43_triangle {n : Nat} {v u t : List ℝ} (hv : v.length = n) (hu : u.length = n) (ht : t.length = n) :
    Real.sqrt (angDist v t) ≤ Real.sqrt (angDist v u) + Real.sqrt (angDist u t) := by
  have hr := (C43_range hv ht).2
  have s4 : Real.sqrt (angDist v t) ≤ 2 := by
    rw [show (2 : ℝ) = Real.sqrt 4 by rw [show (4 : ℝ) = 2 ^ 2 by norm_num, Real.sqrt_sq (by norm_num)]]
    exact Real.sqrt_le_sqrt hr
  have s2 : (1 : ℝ) ≤ Real.sqrt 2 := by
    rw [show (1 : ℝ) = Real.sqrt 1 by simp]; exact Real.sqrt_le_sqrt (by norm_num)
  by_cases hu0 : pt n u = 0
  · rw [angDist_zero hv hu (.inr hu0), angDist_zero hu ht (.inl hu0)]; linarith
  by_cases hv0 : pt n v = 0
  · rw [angDist_zero hv ht (.inl hv0), angDist_zero hv hu (.inl hv0)]
    linarith [Real.sqrt_nonneg (angDist u t)]
  by_cases ht0 : pt n t = 0
  · rw [angDist_zero hv ht (.inr ht0), angDist_zero hu ht (.inr ht0)]
    linarith [Real.sqrt_nonneg (angDist v u)]
  rw [angDist_unit hv ht hv0 ht0, angDist_unit hv hu hv0 hu0, angDist_unit hu ht hu0 ht0, Real.sqrt_sq (norm_nonneg _),
    Real.sqrt_sq (norm_nonneg _), Real.sqrt_sq (norm_nonneg _)]
  exact norm_sub_le_norm_sub_add_norm_sub _ _ _

/-- Two orthogonal directions and the one between them. -/
example : angDist [1, 0] [0, 2] = 2 ∧ angDist [1, 0] [-3, 0] = 4 ∧ angDist [1, 1] [2, 2] = 0 := by
  refine ⟨?_, ?_, ?_⟩
  · rw [angDist_unit (n := 2) rfl rfl, norm_sub_sq_real, unit_norm, unit_norm, real_inner_smul_left, real_inner_smul_right,
      show ⟪pt 2 [1, 0], pt 2 [0, 2]⟫ = Vec.dot realNum [1, 0] [0, 2] from (dot_inner (n := 2) (a := _) (b := _) rfl rfl).symm]
    · simp [Vec.dot, Vec.dotFrom]; try norm_num
    all_goals exact fun h => absurd ((pt_eq_zero (n := 2) (a := _) rfl).1 h) (by simp)
  · rw [angDist_unit (n := 2) rfl rfl, norm_sub_sq_real, unit_norm, unit_norm, real_inner_smul_left, real_inner_smul_right,
      show ⟪pt 2 [1, 0], pt 2 [-3, 0]⟫ = Vec.dot realNum [1, 0] [-3, 0] from (dot_inner (n := 2) (a := _) (b := _) rfl rfl).symm]
    · have h1 : ‖pt 2 [1, 0]‖ = 1 := by
        rw [← Real.sqrt_sq (norm_nonneg _), ← dot_self (n := 2) (a := _) rfl]; simp [Vec.dot, Vec.dotFrom]
      have h2 : ‖pt 2 [-3, 0]‖ = 3 := by
        rw [← Real.sqrt_sq (norm_nonneg _), ← dot_self (n := 2) (a := _) rfl]
        simp only [Vec.dot, Vec.dotFrom]
        rw [show (0 : ℝ) + -3 * -3 + 0 * 0 = 3 ^ 2 by norm_num, Real.sqrt_sq (by norm_num)]
      rw [h1, h2]
      simp only [Vec.dot, Vec.dotFrom]
      norm_num
    all_goals exact fun h => absurd ((pt_eq_zero (n := 2) (a := _) rfl).1 h) (by simp)
  · rw [C43_same_direction (n := 2) rfl rfl ⟨1, by simp⟩ ⟨2, by simp⟩]
    exact ⟨2, by norm_num, by simp⟩

/-! ### C51 -/

/-- **C51**: `Dot` is the inner product of the two vectors … -/
theorem C51_dot {n : Nat} {a b : List ℝ} (ha : a.length = n) (hb : b.length = n) : Vec.dot realNum a b = ∑ i : Fin n, a.getD i 0 * b.getD i 0 := by
  rw [← zipSum_eq n a b ha hb]
  exact (dotFrom_real 0 a b).trans (zero_add _)

/-- … so it is symmetric and linear. -/
theorem C51_dot_bilinear {n : Nat} {a b c : List ℝ} (ha : a.length = n) (hb : b.length = n) (hc : c.length = n) (s t : ℝ) :
    Vec.dot realNum a b = Vec.dot realNum b a ∧
    Vec.dot realNum (List.zipWith (fun x y => s * x + t * y) a b) c = s * Vec.dot realNum a c + t * Vec.dot realNum b c := by
  refine ⟨Vec.dot_comm realNum_mulLaws _ _, ?_⟩
  rw [C51_dot (n := n) (by simp [ha, hb]) hc, C51_dot ha hc, C51_dot hb hc, Finset.mul_sum, Finset.mul_sum, ← Finset.sum_add_distrib]
  apply Finset.sum_congr rfl
  intro i _
  have h1 : (i : Nat) < a.length := ha ▸ i.2
  have h2 : (i : Nat) < b.length := hb ▸ i.2
  have h3 : (i : Nat) < c.length := hc ▸ i.2
  simp [h1, h2, h3]
  ring

/-- **C51**: `GetNorm` is the Euclidean norm. -/
theorem C51_norm {n : Nat} {a : List ℝ} (ha : a.length = n) : Vec.getNorm realNum a = ‖pt n a‖ := by
  show Real.sqrt (Vec.dot realNum a a) = _
  rw [dot_self ha, Real.sqrt_sq (norm_nonneg _)]

theorem euclidFrom_real : ∀ (s : ℝ) (a b : List ℝ), Vec.euclidFrom realNum s a b =
    Vec.dotFrom realNum s (List.zipWith (· - ·) a b) (List.zipWith (· - ·) a b)
  | s, [], _ => by cases ‹List ℝ› <;> simp [Vec.dotFrom, Vec.euclidFrom]
  | s, _ :: _, [] => by simp [Vec.dotFrom, Vec.euclidFrom]
  | s, x :: a, y :: b => by
    show Vec.euclidFrom realNum (s + (x - y) * (x - y)) a b = _
    rw [euclidFrom_real]
    simp [Vec.dotFrom]

/-- **C51**: `EuclideanDistance` is the *squared* Euclidean distance. -/
theorem C51_euclidean {n : Nat} {a b : List ℝ} (ha : a.length = n) (hb : b.length = n) :
    Vec.euclideanDistance realNum a b = dist (pt n a) (pt n b) ^ 2 := by
  have h : pt n (List.zipWith (· - ·) a b) = pt n a - pt n b := by
    ext i
    have h1 : (i : Nat) < a.length := ha ▸ i.2
    have h2 : (i : Nat) < b.length := hb ▸ i.2
    simp [pt, List.getElem?_zipWith, h1, h2]
  rw [dist_eq_norm, ← h, ← dot_self (by simp [ha, hb])]
  exact euclidFrom_real 0 a b

theorem abs_real (x : ℝ) : Vec.abs realNum x = |x| := by
  classical
  show (if decide (x < 0) = true then -x else x) = _
  simp only [decide_eq_true_eq]
  split
  · next h => rw [abs_of_neg h]
  · next h => rw [abs_of_nonneg (not_lt.1 h)]

theorem manhattanFrom_real : ∀ (s : ℝ) (a b : List ℝ), Vec.manhattanFrom realNum s a b = s + (List.zipWith (fun x y => |x - y|) a b).sum
  | s, [], _ => by cases ‹List ℝ› <;> simp [Vec.manhattanFrom]
  | s, _ :: _, [] => by simp [Vec.manhattanFrom]
  | s, x :: a, y :: b => by
    show Vec.manhattanFrom realNum (s + Vec.abs realNum (x - y)) a b = _
    rw [manhattanFrom_real, abs_real]
    simp only [List.zipWith_cons_cons, List.sum_cons]
    ring

/-- **C51**: `ManhattanDistance` is the sum of the absolute differences; a metric. -/
theorem C51_manhattan (a b : List ℝ) : Vec.manhattanDistance realNum a b = (List.zipWith (fun x y => |x - y|) a b).sum :=
  (manhattanFrom_real 0 a b).trans (zero_add _)

theorem C51_manhattan_metric {n : Nat} {a b c : List ℝ} (ha : a.length = n) (hb : b.length = n) (hc : c.length = n) :
    (Vec.manhattanDistance realNum a b = 0 ↔ a = b) ∧ 0 ≤ Vec.manhattanDistance realNum a b ∧
    Vec.manhattanDistance realNum a b = Vec.manhattanDistance realNum b a ∧
    Vec.manhattanDistance realNum a c ≤ Vec.manhattanDistance realNum a b + Vec.manhattanDistance realNum b c := by
  simp only [C51_manhattan]
  induction n generalizing a b c with
  | zero =>
    rw [List.length_eq_zero_iff] at ha hb hc
    subst ha hb hc
    simp
  | succ n ih =>
    obtain _ | ⟨x, a⟩ := a
    · simp at ha
    obtain _ | ⟨y, b⟩ := b
    · simp at hb
    obtain _ | ⟨z, c⟩ := c
    · simp at hc
    obtain ⟨h1, h2, h3, h4⟩ := ih (by simpa using ha) (by simpa using hb) (by simpa using hc)
    simp only [List.zipWith_cons_cons, List.sum_cons]
    refine ⟨?_, by positivity, by rw [abs_sub_comm, h3], ?_⟩
    · constructor
      · intro h
        have h5 := abs_nonneg (x - y)
        have h6 : |x - y| = 0 := by linarith
        have h7 : (List.zipWith (fun x y => |x - y|) a b).sum = 0 := by linarith
        rw [h1.1 h7, sub_eq_zero.1 (abs_eq_zero.1 h6)]
      · intro h
        injection h with h h'
        rw [h, h1.2 h']; simp
    · have := abs_sub_le x y z
      linarith

/-! The slice and the pointer loops agree with the functions on lists, in every arithmetic. -/

section
variable {N : Num}

theorem sliceLoop_ok (term : N.V → N.V → N.V) (a b : List N.V) : ∀ (n i : Nat) (s : N.V), i + n ≤ a.length → i + n ≤ b.length →
    Vec.sliceLoop N term a b n i s = .ok ((List.zipWith term ((a.drop i).take n) ((b.drop i).take n)).foldl N.add s)
  | 0, i, s, _, _ => by simp [Vec.sliceLoop]
  | n + 1, i, s, ha, hb => by
    have h1 : i < a.length := by omega
    have h2 : i < b.length := by omega
    have e1 : Vec.at? a i = .ok a[i] := by simp [Vec.at?, h1]
    have e2 : Vec.at? b i = .ok b[i] := by simp [Vec.at?, h2]
    unfold Vec.sliceLoop
    rw [e1, e2]
    show Vec.sliceLoop N term a b n (i + 1) _ = _
    rw [sliceLoop_ok term a b n (i + 1) _ (by omega) (by omega), show (a.drop i).take (n + 1) = a[i] :: (a.drop (i + 1)).take n by
      rw [List.drop_eq_getElem_cons h1, List.take_succ_cons], show (b.drop i).take (n + 1) = b[i] :: (b.drop (i + 1)).take n by
      rw [List.drop_eq_getElem_cons h2, List.take_succ_cons]]
    rfl

theorem sliceLoop_panics (term : N.V → N.V → N.V) (a b : List N.V) : ∀ (n i : Nat) (s : N.V), i ≤ a.length → i ≤ b.length →
    (a.length < i + n ∨ b.length < i + n) → Vec.sliceLoop N term a b n i s = .error (.panic "index out of range")
  | 0, i, s, h1, h2, h => by omega
  | n + 1, i, s, h1, h2, h => by
    unfold Vec.sliceLoop
    by_cases ha : i < a.length
    · have e1 : Vec.at? a i = .ok a[i] := by simp [Vec.at?, ha]
      rw [e1]
      by_cases hb : i < b.length
      · have e2 : Vec.at? b i = .ok b[i] := by simp [Vec.at?, hb]
        rw [e2]
        exact sliceLoop_panics term a b n (i + 1) _ ha hb (by omega)
      · have e2 : Vec.at? b i = .error (.panic "index out of range") := by
          unfold Vec.at?; rw [List.getElem?_eq_none (by omega)]
        rw [e2]; rfl
    · have e1 : Vec.at? a i = .error (.panic "index out of range") := by
        unfold Vec.at?; rw [List.getElem?_eq_none (by omega)]
      rw [e1]; rfl

theorem dotFrom_fold : ∀ (s : N.V) (a b : List N.V), Vec.dotFrom N s a b = (List.zipWith N.mul a b).foldl N.add s
  | s, [], _ => by cases ‹List N.V› <;> simp [Vec.dotFrom]
  | s, _ :: _, [] => by simp [Vec.dotFrom]
  | s, x :: a, y :: b => by unfold Vec.dotFrom; rw [dotFrom_fold]; simp

theorem euclidFrom_fold : ∀ (s : N.V) (a b : List N.V),
    Vec.euclidFrom N s a b = (List.zipWith (fun x y => N.mul (N.sub x y) (N.sub x y)) a b).foldl N.add s
  | s, [], _ => by cases ‹List N.V› <;> simp [Vec.euclidFrom]
  | s, _ :: _, [] => by simp [Vec.euclidFrom]
  | s, x :: a, y :: b => by unfold Vec.euclidFrom; rw [euclidFrom_fold]; simp

theorem manhattanFrom_fold : ∀ (s : N.V) (a b : List N.V),
    Vec.manhattanFrom N s a b = (List.zipWith (fun x y => Vec.abs N (N.sub x y)) a b).foldl N.add s
  | s, [], _ => by cases ‹List N.V› <;> simp [Vec.manhattanFrom]
  | s, _ :: _, [] => by simp [Vec.manhattanFrom]
  | s, x :: a, y :: b => by unfold Vec.manhattanFrom; rw [manhattanFrom_fold]; simp

/-- **C51**: the slice functions, in every arithmetic, are the list functions on the first `n` elements … -/
theorem C51_slices (a b : List N.V) (n : Nat) (ha : n ≤ a.length) (hb : n ≤ b.length) :
    Vec.dotSlice N a b n = .ok (Vec.dot N (a.take n) (b.take n)) ∧
    Vec.euclideanSlice N a b n = .ok (Vec.euclideanDistance N (a.take n) (b.take n)) ∧
    Vec.manhattanSlice N a b n = .ok (Vec.manhattanDistance N (a.take n) (b.take n)) ∧
    Vec.getNormSlice N a n = .ok (Vec.getNorm N (a.take n)) := by
  have hd : ∀ b : List N.V, n ≤ b.length → Vec.dotSlice N a b n = .ok (Vec.dot N (a.take n) (b.take n)) := by
    intro b hb
    unfold Vec.dotSlice Vec.dot
    rw [sliceLoop_ok _ a b n 0 _ (by omega) (by omega), dotFrom_fold]
    simp
  refine ⟨hd b hb, ?_, ?_, ?_⟩
  · unfold Vec.euclideanSlice Vec.euclideanDistance
    rw [sliceLoop_ok _ a b n 0 _ (by omega) (by omega), euclidFrom_fold]
    simp
  · unfold Vec.manhattanSlice Vec.manhattanDistance
    rw [sliceLoop_ok _ a b n 0 _ (by omega) (by omega), manhattanFrom_fold]
    simp
  · unfold Vec.getNormSlice
    rw [hd a ha]
    rfl

/-- … and panic if a slice is shorter. -/
theorem C51_short_slices (a b : List N.V) (n : Nat) (h : a.length < n ∨ b.length < n) :
    Vec.dotSlice N a b n = .error (.panic "index out of range") ∧ Vec.euclideanSlice N a b n = .error (.panic "index out of range") ∧
    Vec.manhattanSlice N a b n = .error (.panic "index out of range") :=
  ⟨sliceLoop_panics _ a b n 0 _ (by omega) (by omega) (by omega), sliceLoop_panics _ a b n 0 _ (by omega) (by omega) (by omega),
    sliceLoop_panics _ a b n 0 _ (by omega) (by omega) (by omega)⟩

/-- The vector of `n` elements at an address. -/
def ptrVec (C : Codec N.V) (m : Bytes) (p n : Nat) : List N.V := (List.range n).map fun k => C.dec (readBytes m (p + k * C.sz) C.sz)

theorem ptrLoop_eq (C : Codec N.V) (ma : Bytes) (pa : Nat) (mb : Bytes) (pb : Nat) : ∀ (n i : Nat) (s : N.V),
    Vec.ptrLoop N C ma pa mb pb n i s = Vec.dotFrom N s ((List.range' i n).map fun k => C.dec (readBytes ma (pa + k * C.sz) C.sz))
      ((List.range' i n).map fun k => C.dec (readBytes mb (pb + k * C.sz) C.sz))
  | 0, i, s => by simp [Vec.ptrLoop, Vec.dotFrom]
  | n + 1, i, s => by
    unfold Vec.ptrLoop
    rw [ptrLoop_eq C ma pa mb pb n (i + 1)]
    simp [List.range'_succ, Vec.dotFrom]

/-- **C51**: the unsafe variants, in every arithmetic, agree with the safe ones on the vectors at the two addresses. -/
theorem C51_unsafe (C : Codec N.V) (ma : Bytes) (pa : Nat) (mb : Bytes) (pb n : Nat) :
    Vec.dotSlice N (ptrVec C ma pa n) (ptrVec C mb pb n) n = .ok (Vec.dotPtr N C ma pa mb pb n) ∧
    Vec.getNormSlice N (ptrVec C ma pa n) n = .ok (Vec.getNormPtr N C ma pa n) := by
  have h : ∀ mb pb, Vec.dotPtr N C ma pa mb pb n = Vec.dot N (ptrVec C ma pa n) (ptrVec C mb pb n) := by
    intro mb pb
    unfold Vec.dotPtr Vec.dot ptrVec
    rw [ptrLoop_eq, List.range_eq_range']
  have ht : ∀ m p, (ptrVec C m p n).take n = ptrVec C m p n := fun m p => List.take_of_length_le (by simp [ptrVec])
  have h1 := C51_slices (ptrVec C ma pa n) (ptrVec C mb pb n) n (by simp [ptrVec]) (by simp [ptrVec])
  refine ⟨?_, ?_⟩
  · rw [h1.1, ht, ht, h]
  · rw [h1.2.2.2, ht]
    unfold Vec.getNormPtr Vec.getNorm
    rw [h]

/-- The vector of a node is what the unsafe variants see through `GetRawVector`. -/
theorem C51_node_vector (L : Layout) (C : Codec N.V) (b : Bytes) (a : Nat) : Node.vec L C b a = ptrVec C b (a + L.offV) L.f := rfl

end

/-- 1·4 + 2·5 = 14, |1−4| + |2−5| = 6 in `float32`, and the panic. -/
example : Vec.dotSlice ieee32 [x32 0x3F800000, x32 0x40000000] [x32 0x40800000, x32 0x40A00000] 2 = .ok (x32 0x41600000) ∧
    Vec.manhattanSlice ieee32 [x32 0x3F800000, x32 0x40000000] [x32 0x40800000, x32 0x40A00000] 2 = .ok (x32 0x40C00000) ∧
    Vec.dotSlice ieee32 [x32 0x3F800000] [x32 0x40800000, x32 0x40A00000] 2 = .error (.panic "index out of range") := by
  refine ⟨?_, ?_, (C51_short_slices _ _ 2 (by simp)).1⟩
  · rw [(C51_slices _ _ 2 (by simp) (by simp)).1]; exact congrArg Except.ok (by decide +kernel)
  · rw [(C51_slices _ _ 2 (by simp) (by simp)).2.2.1]; exact congrArg Except.ok (by decide +kernel)

end Annoy
