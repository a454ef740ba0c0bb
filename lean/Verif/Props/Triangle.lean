import Verif.Props.SelfDistance
import Verif.Props.Accuracy
/-!
# C134: the triangle inequality for reported distances
-/
namespace Annoy
open Ieee

theorem chord_triangle (n : Nat) (a b c : List ℝ) : chord n a c ≤ chord n a b + chord n b c := norm_sub_le_norm_sub_add_norm_sub _ _ _

theorem reported_triangle {x y z a b c e : ℝ} (h : c ≤ a + b) (hx : |x - a| ≤ e) (hy : |y - b| ≤ e) (hz : |z - c| ≤ e) : z ≤ x + y + 3 * e := by
  linarith [(abs_le.1 hx).1, (abs_le.1 hy).1, (abs_le.1 hz).2]

section
variable {C : Codec ieee32.V} {R : Rng} {sI : List Nat → List Nat} {sP : List (ieee32.V × Nat) → List (ieee32.V × Nat)} {ix n numCPU : Nat}
  {pol : BuildPolicy} {adds : List (Nat × List ieee32.V)} {trees workers : Int} {s s' : Idx (angularCfg ieee32 C R sI sP ix n)}

/-- **C134 for `float32`, what holds**: the distances `GetDistance` reports of three items with moderate norms, if they are numbers, satisfy the triangle inequality up to
`3 (√(5(n+9)u) + 7u)` with `u = 2^-24`.  Missing for the full claim: the inequality without an error, which is false, `C134_refuted`. -/
theorem C134_float32_partial (h : Session (angularCfg ieee32 C R sI sP ix n) numCPU pol adds trees workers s s') (w : World) (hn : n ≤ 2 ^ 17)
    {i j k : Nat} {v x y : List ieee32.V} (ei : lastAdded adds i = some v) (ej : lastAdded adds j = some x) (ek : lastAdded adds k = some y)
    (hv : Moderate32 n v) (hx : Moderate32 n x) (hy : Moderate32 n y) {dij djk dik : ieee32.V} (gij : s'.getDistance w i j = .ok dij)
    (gjk : s'.getDistance w j k = .ok djk) (gik : s'.getDistance w i k = .ok dik) (oij : ieee32.Ordinary dij) (ojk : ieee32.Ordinary djk) (oik : ieee32.Ordinary dik) :
    val32 dik ≤ val32 dij + val32 djk + 3 * (Real.sqrt (5 * (n + 9) * 2 ^ (-24 : Int)) + 7 * 2 ^ (-24 : Int)) := by
  obtain ⟨d1, e1, -, c1⟩ := C83_float32 h w hn ei ej hv hx
  obtain ⟨d2, e2, -, c2⟩ := C83_float32 h w hn ej ek hx hy
  obtain ⟨d3, e3, -, c3⟩ := C83_float32 h w hn ei ek hv hy
  obtain rfl : d1 = dij := Except.ok.inj (e1.symm.trans gij)
  obtain rfl : d2 = djk := Except.ok.inj (e2.symm.trans gjk)
  obtain rfl : d3 = dik := Except.ok.inj (e3.symm.trans gik)
  exact reported_triangle (chord_triangle n _ _ _) (c1 oij).2.1 (c2 ojk).2.1 (c3 oik).2.1
end

section
variable {C : Codec ieee64.V} {R : Rng} {sI : List Nat → List Nat} {sP : List (ieee64.V × Nat) → List (ieee64.V × Nat)} {ix n numCPU : Nat}
  {pol : BuildPolicy} {adds : List (Nat × List ieee64.V)} {trees workers : Int} {s s' : Idx (angularCfg ieee64 C R sI sP ix n)}

/-- **C134 for `float64`, what holds**: the distances `GetDistance` reports of three items with moderate norms, if they are numbers, satisfy the triangle inequality up to
`3 (√(5(n+9)u) + 7u)` with `u = 2^-53`.  Missing for the full claim: the inequality without an error, which is false, `C134_refuted`. -/
theorem C134_float64_partial (h : Session (angularCfg ieee64 C R sI sP ix n) numCPU pol adds trees workers s s') (w : World) (hn : n ≤ 2 ^ 46)
    {i j k : Nat} {v x y : List ieee64.V} (ei : lastAdded adds i = some v) (ej : lastAdded adds j = some x) (ek : lastAdded adds k = some y)
    (hv : Moderate64 n v) (hx : Moderate64 n x) (hy : Moderate64 n y) {dij djk dik : ieee64.V} (gij : s'.getDistance w i j = .ok dij)
    (gjk : s'.getDistance w j k = .ok djk) (gik : s'.getDistance w i k = .ok dik) (oij : ieee64.Ordinary dij) (ojk : ieee64.Ordinary djk) (oik : ieee64.Ordinary dik) :
    val64 dik ≤ val64 dij + val64 djk + 3 * (Real.sqrt (5 * (n + 9) * 2 ^ (-53 : Int)) + 7 * 2 ^ (-53 : Int)) := by
  obtain ⟨d1, e1, -, c1⟩ := C83_float64 h w hn ei ej hv hx
  obtain ⟨d2, e2, -, c2⟩ := C83_float64 h w hn ej ek hx hy
  obtain ⟨d3, e3, -, c3⟩ := C83_float64 h w hn ei ek hv hy
  obtain rfl : d1 = dij := Except.ok.inj (e1.symm.trans gij)
  obtain rfl : d2 = djk := Except.ok.inj (e2.symm.trans gjk)
  obtain rfl : d3 = dik := Except.ok.inj (e3.symm.trans gik)
  exact reported_triangle (chord_triangle n _ _ _) (c1 oij).2.1 (c2 ojk).2.1 (c3 oik).2.1
end

/-- **C134 is false without an error**: three items of any built `float32` angular index with these vectors, of norms between 1 and 2: the first and the second are reported at distance
0, the second and the third too, the first and the third are not. -/
theorem C134_refuted {C : Codec ieee32.V} {R : Rng} {sI : List Nat → List Nat} {sP : List (ieee32.V × Nat) → List (ieee32.V × Nat)} {ix n numCPU : Nat}
    {pol : BuildPolicy} {adds : List (Nat × List ieee32.V)} {trees workers : Int} {s s' : Idx (angularCfg ieee32 C R sI sP ix n)}
    (h : Session (angularCfg ieee32 C R sI sP ix n) numCPU pol adds trees workers s s') (w : World) {i j k : Nat}
    (hi : lastAdded adds i = some [x32 0x3F800000, x32 0]) (hj : lastAdded adds j = some [x32 0x3F8341CF, x32 0x392EA5BC])
    (hk : lastAdded adds k = some [x32 0x3FF8360A, x32 0x39E88934]) :
    s'.getDistance w i j = .ok (x32 0) ∧ s'.getDistance w j k = .ok (x32 0) ∧ s'.getDistance w i k = .ok (x32 0x39B504F3) := by
  rw [C66_angular_value ieee32_mulLaws h w hi hj, C66_angular_value ieee32_mulLaws h w hj hk, C66_angular_value ieee32_mulLaws h w hi hk]
  refine ⟨congrArg Except.ok ?_, congrArg Except.ok ?_, congrArg Except.ok ?_⟩
  · exact (show ieee32.sqrt (angularFormula ieee32 [x32 0x3F800000, x32 0] [x32 0x3F8341CF, x32 0x392EA5BC]) = x32 0 by decide +kernel)
  · exact (show ieee32.sqrt (angularFormula ieee32 [x32 0x3F8341CF, x32 0x392EA5BC] [x32 0x3FF8360A, x32 0x39E88934]) = x32 0 by decide +kernel)
  · exact (show ieee32.sqrt (angularFormula ieee32 [x32 0x3F800000, x32 0] [x32 0x3FF8360A, x32 0x39E88934]) = x32 0x39B504F3 by decide +kernel)

/-- Items for C134: the three vectors, and three that are far apart. -/
def triangleAdds : List (Nat × List ieee32.V) :=
  [(0, [x32 0x3F800000, x32 0]), (1, [x32 0x3F8341CF, x32 0x392EA5BC]), (2, [x32 0x3FF8360A, x32 0x39E88934]), (3, [x32 0, x32 0x3F800000])]

/-- An index with these items; the hypotheses of `C134_float32_partial` hold for the items 0, 2 and 3. -/
example : ∃ s s', Session (alt32 2) 1 .single triangleAdds 1 1 s s' ∧
    (∀ w, s'.getDistance w 0 1 = .ok (x32 0) ∧ s'.getDistance w 1 2 = .ok (x32 0) ∧ s'.getDistance w 0 2 = .ok (x32 0x39B504F3)) ∧
    (∀ i v, lastAdded triangleAdds i = some v → Moderate32 2 v) ∧ (∀ w i j, i < 4 → j < 4 → ∃ d : ieee32.V, s'.getDistance w i j = .ok d ∧ ieee32.Ordinary d) := by
  obtain ⟨s, s', _, h, h1, _⟩ := C10_single (c := alt32 2) (alt32_wf (by decide))
    (Conc.angular_total altRng_inRange (by decide)) (alt32_balanced 2) 1 triangleAdds
    (legalAdds_of (by decide +kernel)) false 0 1 1 (by decide +kernel)
  refine ⟨s, s', h, fun w => C134_refuted h w (by decide +kernel) (by decide +kernel) (by decide +kernel), ?_, ?_⟩
  · intro i v hv
    have hi : i < 4 := by
      by_contra hn
      have : lastAdded triangleAdds i = none := by
        simp only [lastAdded, triangleAdds]
        simp (disch := omega)
        omega
      rw [this] at hv
      cases hv
    interval_cases i <;> cases hv <;> first
      | exact moderate32_of_bits (by decide) (by decide) (by decide +kernel) ⟨0, by decide +kernel⟩
      | exact moderate32_of_bits (by decide) (by decide) (by decide +kernel) ⟨1, by decide +kernel⟩
  · intro w i j hi hj
    interval_cases i <;> interval_cases j <;> exact ⟨_, C66_angular_value ieee32_mulLaws h w rfl rfl, by decide +kernel⟩

end Annoy
