import Verif.Proof.ApproxIeee
import Verif.Props.Geometry
import Verif.Props.OwnVector
import Verif.Props.SelfDistance
/-!
# How accurate are distances and searches? (C83, C84, C85)

The specification is Euclidean geometry over the reals (Mathlib): `chord` is the distance of two vectors after scaling both to length one.  The
theorems compare with it what the index reports, computed in `float32` or `float64` with a rounding in every step.
-/
namespace Annoy
open Ieee

/-- What the angular distance is meant to be: the distance of the two directions on the unit sphere. -/
noncomputable def chord (n : Nat) (a b : List ℝ) : ℝ := ‖(‖pt n a‖⁻¹ • pt n a) - (‖pt n b‖⁻¹ • pt n b)‖

/-- A vector of `n` finite components, with a norm from `lo` to `hi`. -/
structure Moderate {N : Num} (val : N.V → ℝ) (Fin : N.V → Prop) (lo hi : ℝ) (n : Nat) (v : List N.V) : Prop where
  length : v.length = n
  finite : ∀ x ∈ v, Fin x
  lower : lo ≤ ‖pt n (v.map val)‖
  upper : ‖pt n (v.map val)‖ ≤ hi

/-- The bound for the error of a squared distance. -/
def sqErr (n : Nat) (u : ℝ) : ℝ := 5 * (n + 9) * u

/-- The reported distance `d` compared with the true distance `c`: a number unless `c` is tiny, and then close to `c`. -/
def Close (N : Num) (val : N.V → ℝ) (Fin : N.V → Prop) (n : Nat) (u : ℝ) (d : N.V) (c : ℝ) : Prop :=
  (sqErr n u ≤ c ^ 2 → N.Ordinary d) ∧
  (N.Ordinary d → Fin d ∧ |val d - c| ≤ Real.sqrt (sqErr n u) + 7 * u ∧ c * |val d - c| ≤ 5 * (n + 12) * u)

theorem chord_nonneg (n : Nat) (a b : List ℝ) : 0 ≤ chord n a b := norm_nonneg _

theorem chord_comm (n : Nat) (a b : List ℝ) : chord n a b = chord n b a := norm_sub_rev _ _

theorem chord_le (n : Nat) (a b : List ℝ) : chord n a b ≤ 2 := by
  have h : ∀ x : EuclideanSpace ℝ (Fin n), ‖‖x‖⁻¹ • x‖ ≤ 1 := by
    intro x
    by_cases hx : x = 0
    · rw [hx, smul_zero, norm_zero]; norm_num
    · exact (unit_norm hx).le
  have := norm_sub_le (‖pt n a‖⁻¹ • pt n a) (‖pt n b‖⁻¹ • pt n b)
  have := h (pt n a)
  have := h (pt n b)
  unfold chord
  linarith

theorem dotR_eq (a b : List ℝ) : dotR a b = Vec.dot realNum a b := by
  have h : Vec.dot realNum a b = 0 + (List.zipWith (· * ·) a b).sum := dotFrom_real 0 a b
  rw [h, zero_add]
  rfl

/-- The real formula is the square of `chord`. -/
theorem chord_sq {n : Nat} {a b : List ℝ} (ha : a.length = n) (hb : b.length = n) (ha0 : 0 < ‖pt n a‖) (hb0 : 0 < ‖pt n b‖) :
    2 - 2 * (dotR a b / Real.sqrt (dotR a a * dotR b b)) = chord n a b ^ 2 := by
  have h := angDist_unit ha hb (norm_pos_iff.1 ha0) (norm_pos_iff.1 hb0)
  unfold chord
  rw [← h, dotR_eq, dotR_eq, dotR_eq]
  unfold angDist angularFormula
  have hpos : (0 : ℝ) < Vec.dot realNum a a * Vec.dot realNum b b := by rw [dot_self ha, dot_self hb]; positivity
  have : realNum.lt realNum.zero (realNum.mul (Vec.dot realNum a a) (Vec.dot realNum b b)) = true := decide_eq_true hpos
  rw [if_pos this]
  show _ = 2 - 2 * Vec.dot realNum a b / Real.sqrt (Vec.dot realNum a a * Vec.dot realNum b b)
  rw [mul_div_assoc]

section
variable {N : Num} {val : N.V → ℝ} {Fin : N.V → Prop} {u t M lo hi : ℝ} {n : Nat}

/-- The computed squared distance of two vectors. -/
theorem Approx.accurate (H : Approx N val Fin u t M) (K : Scale u t M (lo ^ 2) (hi ^ 2)) (hlo : 0 < lo) (hn : 128 * (n * u) ≤ 1)
    {v w : List N.V} (hv : Moderate val Fin lo hi n v) (hw : Moderate val Fin lo hi n w) :
    Fin (angularFormula N v w) ∧ |val (angularFormula N v w) - chord n (v.map val) (w.map val) ^ 2| ≤ sqErr n u := by
  have norms : ∀ {x : List N.V}, Moderate val Fin lo hi n x →
      lo ^ 2 ≤ dotR (x.map val) (x.map val) ∧ dotR (x.map val) (x.map val) ≤ hi ^ 2 := by
    intro x hx
    rw [dotR_eq, dot_self (n := n) (by rw [List.length_map]; exact hx.length)]
    exact ⟨pow_le_pow_left₀ hlo.le hx.lower 2, pow_le_pow_left₀ (norm_nonneg _) hx.upper 2⟩
  have h := H.formula K (hv.length.trans hw.length.symm) hv.finite hw.finite (by rw [hv.length]; exact hn) (norms hv).1 (norms hv).2
    (norms hw).1 (norms hw).2
  rw [chord_sq (by rw [List.length_map]; exact hv.length) (by rw [List.length_map]; exact hw.length) (lt_of_lt_of_le hlo hv.lower)
    (lt_of_lt_of_le hlo hw.lower), hv.length] at h
  exact h

/-- From a squared distance to the distance, over the reals. -/
theorem root_close {y c d E u t : ℝ} (hc0 : 0 ≤ c) (hc2 : c ≤ 2) (hy : 0 ≤ y) (hE : |y - c ^ 2| ≤ E) (hE1 : E ≤ 1) (hu : 0 ≤ u) (ht : t ≤ u)
    (hd : |d - Real.sqrt y| ≤ 2 * u * Real.sqrt y + t) : |d - c| ≤ Real.sqrt E + 7 * u ∧ c * |d - c| ≤ E + 14 * u := by
  have hr0 := Real.sqrt_nonneg y
  have hr2 := Real.sq_sqrt hy
  set r := Real.sqrt y
  have hr3 : r ≤ 3 := by
    have := (abs_le.1 hE).2
    nlinarith
  have h1 : |d - r| ≤ 7 * u := by
    have : 2 * u * r ≤ 2 * u * 3 := mul_le_mul_of_nonneg_left hr3 (by linarith)
    linarith
  have hfac : |r - c| * (r + c) ≤ E := by
    rw [← hr2] at hE
    rw [show r ^ 2 - c ^ 2 = (r - c) * (r + c) by ring, abs_mul, abs_of_nonneg (by linarith : 0 ≤ r + c)] at hE
    exact hE
  have ha := abs_nonneg (r - c)
  have htri : |d - c| ≤ |d - r| + |r - c| := by
    have := abs_add_le (d - r) (r - c)
    rwa [show d - r + (r - c) = d - c by ring] at this
  constructor
  · have : |r - c| ≤ Real.sqrt E := by
      refine Real.le_sqrt_of_sq_le (le_trans ?_ hfac)
      rw [sq]
      refine mul_le_mul_of_nonneg_left ?_ ha
      rw [abs_le]
      constructor <;> linarith
    linarith
  · have h2 : c * |d - c| ≤ c * (|d - r| + |r - c|) := mul_le_mul_of_nonneg_left htri hc0
    have h3 : c * |d - r| ≤ 2 * (7 * u) := mul_le_mul hc2 h1 (abs_nonneg _) (by norm_num)
    have h4 : |r - c| * c ≤ |r - c| * (r + c) := mul_le_mul_of_nonneg_left (by linarith) ha
    nlinarith

/-- The computed distance of two vectors. -/
theorem Approx.close (H : Approx N val Fin u t M) (K : Scale u t M (lo ^ 2) (hi ^ 2)) (hlo : 0 < lo) (hn : 128 * (n * u) ≤ 1)
    (hs : ∀ x, N.Ordinary (N.sqrt x) ↔ N.Ordinary x ∧ N.lt x N.zero = false) {v w : List N.V} (hv : Moderate val Fin lo hi n v)
    (hw : Moderate val Fin lo hi n w) :
    Close N val Fin n u (N.sqrt (angularFormula N v w)) (chord n (v.map val) (w.map val)) := by
  obtain ⟨h1, h2⟩ := H.accurate K hlo hn hv hw
  have hc0 := chord_nonneg n (v.map val) (w.map val)
  have hc2 := chord_le n (v.map val) (w.map val)
  set c := chord n (v.map val) (w.map val)
  have hu := K.u0
  have hu1 := K.u1
  have hlt : N.lt (angularFormula N v w) N.zero = false ↔ 0 ≤ val (angularFormula N v w) := by
    rw [← not_lt, ← H.zero.2, ← H.lt _ _ h1 H.zero.1, Bool.not_eq_true]
  have hB : 1 ≤ hi ^ 2 := K.B1
  refine ⟨fun hE => (hs _).2 ⟨H.ordinary _ h1, hlt.2 (by have := (abs_le.1 h2).1; linarith)⟩, fun ho => ?_⟩
  have hy := hlt.1 ((hs _).1 ho).2
  have hE1 : sqErr n u ≤ 1 := by unfold sqErr; nlinarith
  have hyM : val (angularFormula N v w) ≤ M := by
    have h3 := (abs_le.1 h2).2
    have h4 := K.large
    have h5 : 1 ≤ (hi ^ 2) ^ 2 := one_le_pow₀ hB
    nlinarith
  obtain ⟨f, e⟩ := H.sqrt _ h1 hy hyM
  have htu : t ≤ u := by
    have := K.norms
    have hl0 := K.L0
    have hl1 := K.L1
    have a1 : u ^ 2 * lo ^ 2 ≤ u ^ 2 * 1 := mul_le_mul_of_nonneg_left hl1 (by positivity)
    nlinarith
  obtain ⟨r1, r2⟩ := root_close hc0 hc2 hy h2 hE1 hu.le htu e
  refine ⟨f, r1, r2.trans ?_⟩
  unfold sqErr
  linarith


variable {C : Codec N.V} {R : Rng} {sortIds : List Nat → List Nat} {sortP : List (N.V × Nat) → List (N.V × Nat)} {ix numCPU : Nat}
  {pol : BuildPolicy} {trees workers : Int} {adds : List (Nat × List N.V)}

theorem vecDist_angular (hN : N.MulLaws) (hc : (angularCfg N C R sortIds sortP ix n).WF) {q v : List N.V} (hq : q.length = n) (hv : v.length = n) :
    vecDist (angularCfg N C R sortIds sortP ix n) q v = angularFormula N q v := by
  have key : ∀ v : List N.V, v.length = n →
      Node.norm (angularLayout ix C.sz n) C (canon (angularCfg N C R sortIds sortP ix n) v) 0 = Vec.dot N v v := by
    intro v hv
    have e := Node.vec_setVec (L := angularLayout ix C.sz n) C zeros 0 v hv
    refine (Node.norm_setNorm (L := angularLayout ix C.sz n) C _ 0 _).trans ?_
    exact congrArg₂ (Vec.dot N) e e
  have kq := canon_vec hc hq
  have kv := canon_vec hc hv
  show Vec.cosDistance N _ _ _ _ = _
  rw [← Vec.cosDistance_formula hN q v (.inl rfl) (.inl rfl)]
  have e1 := key q hq
  have e2 := key v hv
  refine Eq.trans ?_ (congrArg₂ (Vec.cosDistance N (Vec.dot N q q) (Vec.dot N v v)) kq kv)
  exact congrArg₂ (fun a b => Vec.cosDistance N a b _ _) e1 e2

/-- What is known about the arithmetic of an index, and which vectors it is about. -/
structure Arith (N : Num) (val : N.V → ℝ) (Fin : N.V → Prop) (u t M lo hi : ℝ) (n : Nat) : Prop where
  approx : Approx N val Fin u t M
  scale : Scale u t M (lo ^ 2) (hi ^ 2)
  lo0 : 0 < lo
  short : 128 * (n * u) ≤ 1
  mul : N.MulLaws
  lawful : N.Lawful
  sqrt : ∀ x, N.Ordinary (N.sqrt x) ↔ N.Ordinary x ∧ N.lt x N.zero = false

/-- `GetDistance`. -/
theorem Arith.getDistance (A : Arith N val Fin u t M lo hi n) {s s' : Idx (angularCfg N C R sortIds sortP ix n)}
    (h : Session (angularCfg N C R sortIds sortP ix n) numCPU pol adds trees workers s s') (w : World) {i j : Nat} {v x : List N.V}
    (ei : lastAdded adds i = some v) (ej : lastAdded adds j = some x) (hv : Moderate val Fin lo hi n v) (hx : Moderate val Fin lo hi n x) :
    ∃ d, s'.getDistance w i j = .ok d ∧ Close N val Fin n u d (chord n (v.map val) (x.map val)) :=
  ⟨_, C66_angular_value A.mul h w ei ej, A.approx.close A.scale A.lo0 A.short A.sqrt hv hx⟩

/-- The real distance from the query to item `i`. -/
noncomputable def trueDist (val : N.V → ℝ) (n : Nat) (m : Nat → Option (List N.V)) (q : List N.V) (i : Nat) : ℝ :=
  chord n (q.map val) (((m i).getD []).map val)

/-- `itemDist`, the computed squared distance, is near the real one. -/
theorem Arith.itemDist (A : Arith N val Fin u t M lo hi n) (hc : (angularCfg N C R sortIds sortP ix n).WF) {q : List N.V}
    (hq : Moderate val Fin lo hi n q) {m : Nat → Option (List N.V)} {i : Nat} (hm : (m i).isSome)
    (hv : ∀ v, m i = some v → Moderate val Fin lo hi n v) :
    Fin (Annoy.itemDist (angularCfg N C R sortIds sortP ix n) m q i) ∧
    |val (Annoy.itemDist (angularCfg N C R sortIds sortP ix n) m q i) - trueDist val n m q i ^ 2| ≤ sqErr n u ∧
    Close N val Fin n u (N.sqrt (Annoy.itemDist (angularCfg N C R sortIds sortP ix n) m q i)) (trueDist val n m q i) := by
  obtain ⟨v, e⟩ := Option.isSome_iff_exists.1 hm
  have h1 : Annoy.itemDist (angularCfg N C R sortIds sortP ix n) m q i = angularFormula N q v := by
    unfold Annoy.itemDist
    rw [e]
    exact vecDist_angular A.mul hc hq.length (hv v e).length
  have h2 : trueDist val n m q i = chord n (q.map val) (v.map val) := by unfold trueDist; rw [e]; rfl
  rw [h1, h2]
  obtain ⟨a, b⟩ := A.approx.accurate A.scale A.lo0 A.short hq (hv v e)
  exact ⟨a, b, A.approx.close A.scale A.lo0 A.short A.sqrt hq (hv v e)⟩

/-- What an order of computed distances says about the real ones. -/
theorem Arith.pairLt (A : Arith N val Fin u t M lo hi n) {x y : N.V} {a b : ℝ} {i j : Nat} (hx : Fin x) (hy : Fin y)
    (ha : |val x - a| ≤ sqErr n u) (hb : |val y - b| ≤ sqErr n u) (h : PairLt N (x, i) (y, j)) : a ≤ b + 2 * sqErr n u := by
  have hle : val x ≤ val y := by
    by_contra hc
    have hlt := (A.approx.lt _ _ hy hx).2 (not_le.1 hc)
    rcases h with h | ⟨h, -⟩
    · exact absurd ((A.approx.lt _ _ hx hy).1 h) (by linarith)
    · have := A.lawful.lt_of_eq_of_lt x y x h hlt
      rw [A.lawful.lt_irrefl] at this
      cases this
  linarith [(abs_le.1 ha).1, (abs_le.1 hb).2]

/-- A right answer by computed distances is a right answer by real distances, up to twice the error. -/
structure AlmostTopK (N : Num) (val : N.V → ℝ) (Fin : N.V → Prop) (n : Nat) (u : ℝ) (δ : Nat → ℝ) (S : List Nat) (k : Nat) (ids : List Nat)
    (ds : List N.V) : Prop where
  length : ids.length = min k S.length
  nodup : ids.Nodup
  sub : ∀ i ∈ ids, i ∈ S
  dists : List.Forall₂ (fun i d => Close N val Fin n u d (δ i)) ids ds
  sorted : ids.Pairwise fun i j => δ i ^ 2 ≤ δ j ^ 2 + 2 * sqErr n u
  least : ∀ i ∈ ids, ∀ j ∈ S, j ∉ ids → δ i ^ 2 ≤ δ j ^ 2 + 2 * sqErr n u

theorem Arith.topK (A : Arith N val Fin u t M lo hi n) (hc : (angularCfg N C R sortIds sortP ix n).WF) {q : List N.V}
    (hq : Moderate val Fin lo hi n q) {m : Nat → Option (List N.V)} {S ids : List Nat} {ds : List N.V} {k : Nat} (hm : ∀ i ∈ S, (m i).isSome)
    (hv : ∀ i ∈ S, ∀ v, m i = some v → Moderate val Fin lo hi n v)
    (T : TopK N N.sqrt (Annoy.itemDist (angularCfg N C R sortIds sortP ix n) m q) S k ids ds) :
    AlmostTopK N val Fin n u (trueDist val n m q) S k ids ds := by
  have D := fun i (h : i ∈ S) => A.itemDist hc hq (hm i h) (hv i h)
  have ho : ∀ i ∈ S, N.Ordinary (Annoy.itemDist (angularCfg N C R sortIds sortP ix n) m q i) := fun i h => A.approx.ordinary _ (D i h).1
  refine ⟨T.length, T.nodup, T.sub, ?_, ?_, ?_⟩
  · rw [T.dists, List.forall₂_map_right_iff, List.forall₂_same]
    exact fun i hi => (D i (T.sub i hi)).2.2
  · have h1 := T.sorted ho
    rw [List.pairwise_map] at h1
    refine h1.imp_of_mem fun {i j} hi hj h => ?_
    have di := D i (T.sub i hi)
    have dj := D j (T.sub j hj)
    exact A.pairLt di.1 dj.1 di.2.1 dj.2.1 h
  · intro i hi j hj hn
    have di := D i (T.sub i hi)
    have dj := D j hj
    exact A.pairLt di.1 dj.1 di.2.1 dj.2.1 (T.least ho i hi j hj hn)

variable {s s' : Idx (angularCfg N C R sortIds sortP ix n)}

/-- Every search. -/
theorem Arith.search (A : Arith N val Fin u t M lo hi n)
    (h : Session (angularCfg N C R sortIds sortP ix n) numCPU pol adds trees workers s s') (w : World) (hn : 0 < n) {q : List N.V}
    (hq : Moderate val Fin lo hi n q) (hv : ∀ i v, lastAdded adds i = some v → Moderate val Fin lo hi n v)
    {k b : Int} {fuel : Nat} {ctx ctx' : Ctx (angularCfg N C R sortIds sortP ix n)} {ids : List Nat} {ds : List N.V}
    (hr : s'.getNnsByVector fuel w q k b ctx = .ok (ids, ds, ctx')) :
    ∃ S : List Nat, S.Nodup ∧ (∀ i ∈ S, i ∈ addedIds adds) ∧
      AlmostTopK N val Fin n u (trueDist val n (lastAdded adds) q) S k.toNat ids ds := by
  obtain ⟨S, h1, h2, T⟩ := C16_sound h A.lawful w ⟨hq.length, angular_marginOk hq.length hn⟩ hr
  exact ⟨S, h1, fun i hi => mem_addedIds.2 (h2 i hi), A.topK h.wf hq h2 (fun i _ => hv i) T⟩

/-- Exhaustive search. -/
theorem Arith.exhaustive (A : Arith N val Fin u t M lo hi n)
    (h : Session (angularCfg N C R sortIds sortP ix n) numCPU pol adds trees workers s s')
    (hk : SplitsKept (angularCfg N C R sortIds sortP ix n) numCPU pol (slotCount adds) trees workers) (w : World) (hn : 0 < n) {q : List N.V}
    (hq : Moderate val Fin lo hi n q) (hv : ∀ i v, lastAdded adds i = some v → Moderate val Fin lo hi n v) (hroots : s'.roots ≠ [])
    {k b : Int} {fuel : Nat} {ctx ctx' : Ctx (angularCfg N C R sortIds sortP ix n)} {ids : List Nat} {ds : List N.V}
    (hb : ((s'.roots.length * ((addedIds adds).length - 1) + 1 : Nat) : Int) ≤ b)
    (hr : s'.getNnsByVector fuel w q k b ctx = .ok (ids, ds, ctx')) :
    AlmostTopK N val Fin n u (trueDist val n (lastAdded adds) q) (addedIds adds) k.toNat ids ds := by
  obtain ⟨T, -⟩ := C17_exhaustive_partial h hk A.lawful w ⟨hq.length, angular_marginOk hq.length hn⟩ hroots hb hr
  exact A.topK h.wf hq (fun i hi => mem_addedIds.1 hi) (fun i _ => hv i) T

/-- The search by an item. -/
theorem Arith.own (A : Arith N val Fin u t M lo hi n)
    (h : Session (angularCfg N C R sortIds sortP ix n) numCPU pol adds trees workers s s')
    (hk : SplitsKept (angularCfg N C R sortIds sortP ix n) numCPU pol (slotCount adds) trees workers) (w : World) (hn : 0 < n)
    (hv : ∀ i v, lastAdded adds i = some v → Moderate val Fin lo hi n v) (hroots : s'.roots ≠ []) {i : Nat} {v : List N.V}
    (hi : lastAdded adds i = some v)
    (hfar : ∀ j x, lastAdded adds j = some x → j ≠ i → 2 * sqErr n u < chord n (v.map val) (x.map val) ^ 2)
    {k b : Int} {fuel : Nat} {ctx ctx' : Ctx (angularCfg N C R sortIds sortP ix n)} {ids : List Nat} {ds : List N.V} (hk1 : 1 ≤ k)
    (hb : ((s'.roots.length * ((addedIds adds).length - 1) + 1 : Nat) : Int) ≤ b)
    (hr : s'.getNnsByItem fuel w i k b ctx = .ok (ids, ds, ctx')) : ids.head? = some i := by
  have D := fun j (hj : j ∈ addedIds adds) => A.itemDist h.wf (hv i v hi) (mem_addedIds.1 hj) (hv j)
  refine h.C70_own_vector_partial hk A.lawful w hi (angular_marginOk (hv i v hi).length hn) hk1 hroots hb
    (fun j hj => A.approx.ordinary _ (D j hj).1) (fun j hj hne => .inl ?_) hr
  have hi' : i ∈ addedIds adds := mem_addedIds.2 (by rw [hi]; rfl)
  refine (A.approx.lt _ _ (D i hi').1 (D j hj).1).2 ?_
  obtain ⟨x, hx⟩ : ∃ x : List N.V, lastAdded adds j = some x := Option.isSome_iff_exists.1 (mem_addedIds.1 hj)
  have e1 : trueDist val n (lastAdded adds) v i = 0 := by
    unfold trueDist chord
    rw [hi]
    exact (congrArg norm (sub_self _)).trans norm_zero
  have e2 : trueDist val n (lastAdded adds) v j = chord n (v.map val) (x.map val) := by unfold trueDist; rw [hx]; rfl
  have b1 := (abs_le.1 (D i hi').2.1).2
  have b2 := (abs_le.1 (D j hj).2.1).1
  rw [e1] at b1
  rw [e2] at b2
  have := hfar j x hx hne
  linarith

end

theorem arith32 {n : Nat} (hn : n ≤ 2 ^ 17) :
    Arith ieee32 val32 fin32 (2 ^ (-24 : Int)) (2 ^ (-149 : Int)) (2 ^ 127) (2 ^ (-31 : Int)) (2 ^ 31) n where
  approx := ieee32_approx
  scale := scale32
  lo0 := by positivity
  short := by
    have : (n : ℝ) ≤ 2 ^ 17 := by exact_mod_cast hn
    have h2 : (n : ℝ) * 2 ^ (-24 : Int) ≤ 2 ^ 17 * 2 ^ (-24 : Int) := mul_le_mul_of_nonneg_right this (by positivity)
    refine (mul_le_mul_of_nonneg_left h2 (by norm_num)).trans ?_
    norm_num
  mul := ieee32_mulLaws
  lawful := ieee32_lawful
  sqrt := ieee32_sqrt_ordinary

theorem arith64 {n : Nat} (hn : n ≤ 2 ^ 46) :
    Arith ieee64 val64 fin64 (2 ^ (-53 : Int)) (2 ^ (-1074 : Int)) (2 ^ 1000) (2 ^ (-249 : Int)) (2 ^ 249) n where
  approx := ieee64_approx
  scale := scale64
  lo0 := by positivity
  short := by
    have : (n : ℝ) ≤ 2 ^ 46 := by exact_mod_cast hn
    have h2 : (n : ℝ) * 2 ^ (-53 : Int) ≤ 2 ^ 46 * 2 ^ (-53 : Int) := mul_le_mul_of_nonneg_right this (by positivity)
    refine (mul_le_mul_of_nonneg_left h2 (by norm_num)).trans ?_
    norm_num
  mul := ieee64_mulLaws
  lawful := ieee64_lawful
  sqrt := ieee64_sqrt_ordinary

/-- `float32` vectors with a norm from `2^-31` to `2^31`. -/
abbrev Moderate32 (n : Nat) (v : List ieee32.V) : Prop := Moderate val32 fin32 (2 ^ (-31 : Int)) (2 ^ 31) n v
/-- `float64` vectors with a norm from `2^-249` to `2^249`. -/
abbrev Moderate64 (n : Nat) (v : List ieee64.V) : Prop := Moderate val64 fin64 (2 ^ (-249 : Int)) (2 ^ 249) n v

section
variable {R : Rng} {sortIds : List Nat → List Nat} {ix n numCPU : Nat} {pol : BuildPolicy} {trees workers : Int}

section
variable {C : Codec ieee32.V} {sortP : List (ieee32.V × Nat) → List (ieee32.V × Nat)} {adds : List (Nat × List ieee32.V)}
  {s s' : Idx (angularCfg ieee32 C R sortIds sortP ix n)}

/-- **C83 for `float32`**: on a built angular index with at most `2^17` components per vector, `GetDistance` of two items with norms from `2^-31` to
`2^31` is close to the real distance `c` of their directions: it is a number unless `c² < 5(n+9)·2^-24`, and if it is a number, it differs from `c`
by at most `√(5(n+9)·2^-24) + 7·2^-24`, and by at most `5(n+12)·2^-24 / c`. -/
theorem C83_float32 (h : Session (angularCfg ieee32 C R sortIds sortP ix n) numCPU pol adds trees workers s s') (w : World) (hn : n ≤ 2 ^ 17)
    {i j : Nat} {v x : List ieee32.V} (ei : lastAdded adds i = some v) (ej : lastAdded adds j = some x) (hv : Moderate32 n v) (hx : Moderate32 n x) :
    ∃ d, s'.getDistance w i j = .ok d ∧ Close ieee32 val32 fin32 n (2 ^ (-24 : Int)) d (chord n (v.map val32) (x.map val32)) :=
  (arith32 hn).getDistance h w ei ej hv hx

/-- **C84 for `float32`, any search**: what `GetNnsByVector` returns are the nearest of some of the added items by the real distance, in
ascending order, where squared distances that differ by at most `10(n+9)·2^-24` may be taken for equal; the returned distances are close to the real
ones. -/
theorem C84_search_float32 (h : Session (angularCfg ieee32 C R sortIds sortP ix n) numCPU pol adds trees workers s s') (w : World)
    (h0 : 0 < n) (hn : n ≤ 2 ^ 17) {q : List ieee32.V} (hq : Moderate32 n q) (hv : ∀ i v, lastAdded adds i = some v → Moderate32 n v)
    {k b : Int} {fuel : Nat} {ctx ctx' : Ctx (angularCfg ieee32 C R sortIds sortP ix n)} {ids : List Nat} {ds : List ieee32.V}
    (hr : s'.getNnsByVector fuel w q k b ctx = .ok (ids, ds, ctx')) :
    ∃ S : List Nat, S.Nodup ∧ (∀ i ∈ S, i ∈ addedIds adds) ∧
      AlmostTopK ieee32 val32 fin32 n (2 ^ (-24 : Int)) (trueDist val32 n (lastAdded adds) q) S k.toNat ids ds :=
  (arith32 hn).search h w h0 hq hv hr

/-- **C84 for `float32`, exhaustive search**: with a budget that covers all trees, and if inner nodes survive being written, these are the nearest
of all added items. -/
theorem C84_exhaustive_float32 (h : Session (angularCfg ieee32 C R sortIds sortP ix n) numCPU pol adds trees workers s s')
    (hk : SplitsKept (angularCfg ieee32 C R sortIds sortP ix n) numCPU pol (slotCount adds) trees workers) (w : World)
    (h0 : 0 < n) (hn : n ≤ 2 ^ 17) {q : List ieee32.V} (hq : Moderate32 n q) (hv : ∀ i v, lastAdded adds i = some v → Moderate32 n v)
    (hroots : s'.roots ≠ []) {k b : Int} {fuel : Nat} {ctx ctx' : Ctx (angularCfg ieee32 C R sortIds sortP ix n)} {ids : List Nat}
    {ds : List ieee32.V} (hb : ((s'.roots.length * ((addedIds adds).length - 1) + 1 : Nat) : Int) ≤ b)
    (hr : s'.getNnsByVector fuel w q k b ctx = .ok (ids, ds, ctx')) :
    AlmostTopK ieee32 val32 fin32 n (2 ^ (-24 : Int)) (trueDist val32 n (lastAdded adds) q) (addedIds adds) k.toNat ids ds :=
  (arith32 hn).exhaustive h hk w h0 hq hv hroots hb hr

/-- **C85 for `float32`**: an exhaustive search by an item finds the item itself first, if every other item is at a squared distance of more than
`10(n+9)·2^-24` from it. -/
theorem C85_float32 (h : Session (angularCfg ieee32 C R sortIds sortP ix n) numCPU pol adds trees workers s s')
    (hk : SplitsKept (angularCfg ieee32 C R sortIds sortP ix n) numCPU pol (slotCount adds) trees workers) (w : World)
    (h0 : 0 < n) (hn : n ≤ 2 ^ 17) (hv : ∀ i v, lastAdded adds i = some v → Moderate32 n v) (hroots : s'.roots ≠ []) {i : Nat}
    {v : List ieee32.V} (hi : lastAdded adds i = some v)
    (hfar : ∀ j x, lastAdded adds j = some x → j ≠ i → 2 * sqErr n (2 ^ (-24 : Int)) < chord n (v.map val32) (x.map val32) ^ 2)
    {k b : Int} {fuel : Nat} {ctx ctx' : Ctx (angularCfg ieee32 C R sortIds sortP ix n)} {ids : List Nat} {ds : List ieee32.V} (hk1 : 1 ≤ k)
    (hb : ((s'.roots.length * ((addedIds adds).length - 1) + 1 : Nat) : Int) ≤ b)
    (hr : s'.getNnsByItem fuel w i k b ctx = .ok (ids, ds, ctx')) : ids.head? = some i :=
  (arith32 hn).own h hk w h0 hv hroots hi hfar hk1 hb hr

end

section
variable {C : Codec ieee64.V} {sortP : List (ieee64.V × Nat) → List (ieee64.V × Nat)} {adds : List (Nat × List ieee64.V)}
  {s s' : Idx (angularCfg ieee64 C R sortIds sortP ix n)}

/-- **C83 for `float64`**: the same with `2^-53` for `2^-24`, norms from `2^-249` to `2^249`, and up to `2^46` components. -/
theorem C83_float64 (h : Session (angularCfg ieee64 C R sortIds sortP ix n) numCPU pol adds trees workers s s') (w : World) (hn : n ≤ 2 ^ 46)
    {i j : Nat} {v x : List ieee64.V} (ei : lastAdded adds i = some v) (ej : lastAdded adds j = some x) (hv : Moderate64 n v) (hx : Moderate64 n x) :
    ∃ d, s'.getDistance w i j = .ok d ∧ Close ieee64 val64 fin64 n (2 ^ (-53 : Int)) d (chord n (v.map val64) (x.map val64)) :=
  (arith64 hn).getDistance h w ei ej hv hx

/-- **C84 for `float64`, any search.** -/
theorem C84_search_float64 (h : Session (angularCfg ieee64 C R sortIds sortP ix n) numCPU pol adds trees workers s s') (w : World)
    (h0 : 0 < n) (hn : n ≤ 2 ^ 46) {q : List ieee64.V} (hq : Moderate64 n q) (hv : ∀ i v, lastAdded adds i = some v → Moderate64 n v)
    {k b : Int} {fuel : Nat} {ctx ctx' : Ctx (angularCfg ieee64 C R sortIds sortP ix n)} {ids : List Nat} {ds : List ieee64.V}
    (hr : s'.getNnsByVector fuel w q k b ctx = .ok (ids, ds, ctx')) :
    ∃ S : List Nat, S.Nodup ∧ (∀ i ∈ S, i ∈ addedIds adds) ∧
      AlmostTopK ieee64 val64 fin64 n (2 ^ (-53 : Int)) (trueDist val64 n (lastAdded adds) q) S k.toNat ids ds :=
  (arith64 hn).search h w h0 hq hv hr

/-- **C84 for `float64`, exhaustive search.** -/
theorem C84_exhaustive_float64 (h : Session (angularCfg ieee64 C R sortIds sortP ix n) numCPU pol adds trees workers s s')
    (hk : SplitsKept (angularCfg ieee64 C R sortIds sortP ix n) numCPU pol (slotCount adds) trees workers) (w : World)
    (h0 : 0 < n) (hn : n ≤ 2 ^ 46) {q : List ieee64.V} (hq : Moderate64 n q) (hv : ∀ i v, lastAdded adds i = some v → Moderate64 n v)
    (hroots : s'.roots ≠ []) {k b : Int} {fuel : Nat} {ctx ctx' : Ctx (angularCfg ieee64 C R sortIds sortP ix n)} {ids : List Nat}
    {ds : List ieee64.V} (hb : ((s'.roots.length * ((addedIds adds).length - 1) + 1 : Nat) : Int) ≤ b)
    (hr : s'.getNnsByVector fuel w q k b ctx = .ok (ids, ds, ctx')) :
    AlmostTopK ieee64 val64 fin64 n (2 ^ (-53 : Int)) (trueDist val64 n (lastAdded adds) q) (addedIds adds) k.toNat ids ds :=
  (arith64 hn).exhaustive h hk w h0 hq hv hroots hb hr

/-- **C85 for `float64`.** -/
theorem C85_float64 (h : Session (angularCfg ieee64 C R sortIds sortP ix n) numCPU pol adds trees workers s s')
    (hk : SplitsKept (angularCfg ieee64 C R sortIds sortP ix n) numCPU pol (slotCount adds) trees workers) (w : World)
    (h0 : 0 < n) (hn : n ≤ 2 ^ 46) (hv : ∀ i v, lastAdded adds i = some v → Moderate64 n v) (hroots : s'.roots ≠ []) {i : Nat}
    {v : List ieee64.V} (hi : lastAdded adds i = some v)
    (hfar : ∀ j x, lastAdded adds j = some x → j ≠ i → 2 * sqErr n (2 ^ (-53 : Int)) < chord n (v.map val64) (x.map val64) ^ 2)
    {k b : Int} {fuel : Nat} {ctx ctx' : Ctx (angularCfg ieee64 C R sortIds sortP ix n)} {ids : List Nat} {ds : List ieee64.V} (hk1 : 1 ≤ k)
    (hb : ((s'.roots.length * ((addedIds adds).length - 1) + 1 : Nat) : Int) ≤ b)
    (hr : s'.getNnsByItem fuel w i k b ctx = .ok (ids, ds, ctx')) : ids.head? = some i :=
  (arith64 hn).own h hk w h0 hv hroots hi hfar hk1 hb hr

end
end

/-! ### examples -/

/-- Vectors of at most `2^20` components with absolute values up to `2^20`, one of which is at least `2^-31`: seen from the patterns. -/
theorem moderate32_of_bits {n : Nat} {v : List ieee32.V} (hl : v.length = n) (hn : n ≤ 2 ^ 20)
    (h1 : ∀ x ∈ v, f32.mag (BitVec.toNat (w := 32) x) ≤ 147 * 2 ^ f32.mb)
    (h2 : ∃ i, 96 * 2 ^ f32.mb ≤ f32.mag (BitVec.toNat (w := 32) (v.getD i ieee32.zero))) : Moderate32 n v := by
  have ehi : f32.value (146 * 2 ^ f32.mb + 2 ^ f32.mb) = 2 ^ (20 : Int) := by rw [value_pow]; congr 1
  have elo : f32.value (95 * 2 ^ f32.mb + 2 ^ f32.mb) = 2 ^ (-31 : Int) := by rw [value_pow]; congr 1
  have hz : f32.mag (BitVec.toNat (w := 32) ieee32.zero) = 0 := by decide
  refine ⟨hl, fun x hx => lt_of_le_of_lt (h1 x hx) (by decide), ?_, ?_⟩
  · obtain ⟨i, hi⟩ := h2
    have hin : i < v.length := by
      by_contra hc
      rw [List.getD_eq_getElem?_getD, List.getElem?_eq_none (not_lt.1 hc), Option.getD_none, hz] at hi
      have := Nat.two_pow_pos f32.mb
      omega
    have hc : (2 : ℝ) ^ (-31 : Int) ≤ |val32 (v.getD i ieee32.zero)| := by
      unfold val32
      rw [Fmt.abs_real, ← elo, f32.value_strictMono.le_iff_le]
      omega
    refine hc.trans ?_
    have := PiLp.norm_apply_le (p := 2) (pt n (v.map val32)) ⟨i, by omega⟩
    refine le_trans (le_of_eq ?_) this
    rw [Real.norm_eq_abs]
    congr 1
    simp [pt, List.getD_eq_getElem?_getD, hin]
  · rw [← abs_of_nonneg (norm_nonneg (pt n (v.map val32))), ← abs_of_nonneg (by norm_num : (0 : ℝ) ≤ 2 ^ 31)]
    refine sq_le_sq.1 ?_
    rw [EuclideanSpace.norm_sq_eq]
    have hb : ∀ i : Fin n, ‖(pt n (v.map val32)) i‖ ^ 2 ≤ (2 ^ 20) ^ 2 := by
      intro i
      have hin : i.1 < v.length := by rw [hl]; exact i.2
      refine pow_le_pow_left₀ (norm_nonneg _) ?_ 2
      have e : (pt n (v.map val32)) i = val32 (v[i.1]) := by simp [pt, hin]
      rw [e, Real.norm_eq_abs]
      unfold val32
      rw [Fmt.abs_real, show (2 : ℝ) ^ 20 = 2 ^ (20 : Int) by norm_num, ← ehi, f32.value_strictMono.le_iff_le]
      have := h1 _ (List.getElem_mem hin)
      omega
    refine (Finset.sum_le_sum fun i _ => hb i).trans ?_
    rw [Finset.sum_const, Finset.card_univ, Fintype.card_fin, nsmul_eq_mul]
    have : (n : ℝ) ≤ 2 ^ 20 := by exact_mod_cast hn
    have h3 : (n : ℝ) * (2 ^ 20) ^ 2 ≤ 2 ^ 20 * (2 ^ 20) ^ 2 := mul_le_mul_of_nonneg_right this (by positivity)
    refine h3.trans ?_
    norm_num

/-- A lower bound for the real distance from the computed one. -/
theorem chord_ge32 {n : Nat} (hn : n ≤ 2 ^ 17) {v x : List ieee32.V} (hv : Moderate32 n v) (hx : Moderate32 n x) {b : Nat}
    (h0 : f32.isNeg (BitVec.toNat (w := 32) (angularFormula ieee32 v x)) = false)
    (hb : b ≤ f32.mag (BitVec.toNat (w := 32) (angularFormula ieee32 v x))) :
    f32.value b - sqErr n (2 ^ (-24 : Int)) ≤ chord n (v.map val32) (x.map val32) ^ 2 := by
  obtain ⟨-, h2⟩ := ieee32_approx.accurate scale32 (by positivity) (arith32 hn).short hv hx
  have h3 : f32.value b ≤ val32 (angularFormula ieee32 v x) := by
    unfold val32
    rw [Fmt.real_of_nonneg h0, f32.value_strictMono.le_iff_le]
    exact hb
  have := (abs_le.1 h2).2
  linarith

theorem farAdds_moderate {i : Nat} {v : List ieee32.V} (h : lastAdded farAdds i = some v) : Moderate32 12 v ∧ (i = 0 ∨ i = 20) ∧ v = longVec i := by
  have hi : i ∈ addedIds farAdds := mem_addedIds.2 (by rw [h]; rfl)
  rw [show addedIds farAdds = [0, 20] by decide +kernel] at hi
  have hi' : i = 0 ∨ i = 20 := by simpa using hi
  have e : v = longVec i := by
    have : lastAdded farAdds i = some (longVec i) := by rcases hi' with rfl | rfl <;> decide +kernel
    exact Option.some.inj (h.symm.trans this)
  subst e
  refine ⟨?_, hi', rfl⟩
  rcases hi' with rfl | rfl
  · exact moderate32_of_bits (by decide) (by decide) (by decide +kernel) ⟨0, by decide +kernel⟩
  · exact moderate32_of_bits (by decide) (by decide) (by decide +kernel) ⟨0, by decide +kernel⟩

/-- C83, C84, C85: one index with a tree with inner nodes, for which all hypotheses hold. -/
theorem C83_C85_case : ∃ s s', Session (angular32 4 12) 1 .single farAdds 1 1 s s' ∧
    SplitsKept (angular32 4 12) 1 .single (slotCount farAdds) 1 1 ∧ Moderate32 12 query12 ∧
    (∀ i v, lastAdded farAdds i = some v → Moderate32 12 v) ∧ s'.roots ≠ [] ∧
    ((s'.roots.length * ((addedIds farAdds).length - 1) + 1 : Nat) : Int) ≤ 2 ∧
    lastAdded farAdds 0 = some (longVec 0) ∧ lastAdded farAdds 20 = some (longVec 20) ∧
    (∀ j x, lastAdded farAdds j = some x → j ≠ 0 → 2 * sqErr 12 (2 ^ (-24 : Int)) < chord 12 ((longVec 0).map val32) (x.map val32) ^ 2) ∧ ∀ w,
    (∃ ds o, s'.getNnsByVector 100 w query12 2 2 (wideCtx _) = .ok ([0, 20], ds, o)) ∧
    (∃ ds o, s'.getNnsByItem 100 w 0 1 2 (wideCtx _) = .ok ([0], ds, o)) := by
  obtain ⟨s, s', h, hp⟩ := made_with (c := angular32 4 12) (r := Kiss32.new 0) (adds := farAdds) (trees := 1)
    (fun s' => decide (s'.roots = [21] ∧
      answerIds (Search.run (angular32 4 12) 100 s'.bmem s'.nItems s'.roots query12 2 2 (wideCtx _)) = some [0, 20] ∧
      answerIds (Search.run (angular32 4 12) 100 s'.bmem s'.nItems s'.roots (longVec 0) 1 2 (wideCtx _)) = some [0]))
    (angular32_wf (Or.inl rfl) (by decide)) (legalAdds_of (by decide +kernel)) (by decide +kernel) (by decide +kernel)
  obtain ⟨h1, h2, h3⟩ := of_decide_eq_true hp
  obtain ⟨N0, B, _⟩ := h.built
  have h0 : 0 < s'.nNodes := by have := B.nNodes; rw [h1] at this; simp at this; omega
  obtain ⟨d1, o1, e1⟩ := answerIds_some h2
  obtain ⟨d2, o2, e2⟩ := answerIds_some h3
  have hv : lastAdded farAdds 0 = some (longVec 0) := by decide +kernel
  refine ⟨s, s', h, splitsKept_of_length h.wf (by decide) h.fits,
    moderate32_of_bits (by decide) (by decide) (by decide +kernel) ⟨0, by decide +kernel⟩,
    fun i v h => (farAdds_moderate h).1, by rw [h1]; simp, by rw [h1]; decide +kernel, hv, by decide +kernel, fun j x hx hne => ?_, fun w => ?_⟩
  · obtain ⟨hm, hj, rfl⟩ := farAdds_moderate hx
    rcases hj with rfl | rfl
    · exact absurd rfl hne
    · refine lt_of_lt_of_le ?_ (chord_ge32 (b := 122 * 2 ^ f32.mb + 2 ^ f32.mb) (by norm_num) (farAdds_moderate hv).1 hm (by decide +kernel) (by decide +kernel))
      rw [value_pow, show ((f32.mb : Int) + f32.emin + (122 : Nat)) = -4 by decide]
      unfold sqErr
      norm_num
  · refine ⟨⟨d1, o1, (B.search w h0 _ _ _ _ _).trans e1⟩, ⟨d2, o2, ?_⟩⟩
    rw [C24_by_item, B.getItem w hv]
    exact (B.search w h0 _ _ _ _ _).trans e2

/-- For usual embeddings (`float32`, 1536 components) the squared distance is right to three decimals. -/
example : sqErr 1536 (2 ^ (-24 : Int)) < 1 / 2000 := by unfold sqErr; norm_num

end Annoy
