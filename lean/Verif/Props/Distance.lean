import Verif.Proof.IeeeSqrt
import Verif.Props.Search
import Verif.Props.Finish
/-!
# Distances reported by an index (C44, C45, C47, C66)

`angularFormula` is the specification: the textbook formula `2 - 2·⟨v,u⟩/√(|v|²|u|²)`, `2` when a norm vanishes, evaluated in the arithmetic of
the index with no reference to nodes, cached norms or branches of the code.
-/
namespace Annoy

/-- The angular distance of two vectors, in the arithmetic `N`. -/
def angularFormula (N : Num) (v u : List N.V) : N.V :=
  if N.lt N.zero (N.mul (Vec.dot N v v) (Vec.dot N u u)) then
    N.sub N.two (N.div (N.mul N.two (Vec.dot N v u)) (N.sqrt (N.mul (Vec.dot N v v) (Vec.dot N u u))))
  else N.two

/-- Laws of multiplication that hold bit for bit in IEEE arithmetic. -/
structure Num.MulLaws (N : Num) : Prop where
  mul_comm : ∀ x y, N.mul x y = N.mul y x
  zero_mul : ∀ x y, N.eq x N.zero = true → N.lt N.zero (N.mul x y) = false
  zero_zero : N.lt N.zero N.zero = false

theorem ieee32_mulLaws : ieee32.MulLaws where
  mul_comm x y := congrArg (BitVec.ofNat 32) (Ieee.f32.mul_comm _ _)
  zero_mul x y h := by
    have h1 := Ieee.f32.zero_mul_not_pos Ieee.f32_ok (x := BitVec.toNat x) h (BitVec.toNat y)
    have h2 : Ieee.f32.mul (BitVec.toNat x) (BitVec.toNat y) < 2 ^ 32 := Ieee.f32.mul_lt Ieee.f32_ok _ _
    show Ieee.f32.lt 0 (BitVec.ofNat 32 _).toNat = false
    rw [BitVec.toNat_ofNat, Nat.mod_eq_of_lt h2]
    exact h1
  zero_zero := by decide

theorem ieee64_mulLaws : ieee64.MulLaws where
  mul_comm x y := congrArg (BitVec.ofNat 64) (Ieee.f64.mul_comm _ _)
  zero_mul x y h := by
    have h1 := Ieee.f64.zero_mul_not_pos Ieee.f64_ok (x := BitVec.toNat x) h (BitVec.toNat y)
    have h2 : Ieee.f64.mul (BitVec.toNat x) (BitVec.toNat y) < 2 ^ 64 := Ieee.f64.mul_lt Ieee.f64_ok _ _
    show Ieee.f64.lt 0 (BitVec.ofNat 64 _).toNat = false
    rw [BitVec.toNat_ofNat, Nat.mod_eq_of_lt h2]
    exact h1
  zero_zero := by decide

namespace Vec
variable {N : Num}

theorem dotFrom_comm (h : N.MulLaws) : ∀ (s : N.V) (a b : List N.V), dotFrom N s a b = dotFrom N s b a
  | _, [], [] | _, [], _ :: _ | _, _ :: _, [] => rfl
  | s, x :: a, y :: b => by
    unfold dotFrom
    rw [h.mul_comm x y]
    exact dotFrom_comm h _ a b

theorem dot_comm (h : N.MulLaws) (a b : List N.V) : dot N a b = dot N b a := dotFrom_comm h _ a b

/-- The two branches of the code on zero norms do not show. -/
theorem cosDistance_eq (h : N.MulLaws) (pp qq : N.V) (xv yv : List N.V) :
    cosDistance N pp qq xv yv =
      (let p := if N.eq pp N.zero then dot N xv xv else pp
       let q := if N.eq qq N.zero then dot N yv yv else qq
       if N.lt N.zero (N.mul p q) then N.sub N.two (N.div (N.mul N.two (dot N xv yv)) (N.sqrt (N.mul p q))) else N.two) := by
  unfold cosDistance
  dsimp only
  generalize (if N.eq pp N.zero then dot N xv xv else pp) = p
  generalize (if N.eq qq N.zero then dot N yv yv else qq) = q
  by_cases hp : N.eq p N.zero = true
  · rw [if_pos hp, h.zero_zero, h.zero_mul _ _ hp]; rfl
  · rw [if_neg hp]

theorem cosDistance_comm (h : N.MulLaws) (pp qq : N.V) (xv yv : List N.V) :
    cosDistance N pp qq xv yv = cosDistance N qq pp yv xv := by
  rw [cosDistance_eq h, cosDistance_eq h]
  dsimp only
  rw [dot_comm h xv yv, h.mul_comm]

/-- With the cached norm of the vector, or none, the code computes the formula. -/
theorem cosDistance_formula (h : N.MulLaws) (xv yv : List N.V) {pp qq : N.V} (hp : pp = dot N xv xv ∨ N.eq pp N.zero = true)
    (hq : qq = dot N yv yv ∨ N.eq qq N.zero = true) : cosDistance N pp qq xv yv = angularFormula N xv yv := by
  rw [cosDistance_eq h]
  have : ∀ (r : N.V) (v : List N.V), (r = dot N v v ∨ N.eq r N.zero = true) → (if N.eq r N.zero then dot N v v else r) = dot N v v := by
    rintro r v (rfl | h)
    · split <;> rfl
    · rw [if_pos h]
  dsimp only
  rw [this _ _ hp, this _ _ hq]
  rfl

end Vec

/-! ### C44 -/

/-- **C44**: `GetDistance(i, j) = GetDistance(j, i)`, bit for bit, for every index whose distance is one of the two of the repository, whatever
its state, memory, vectors and cached norms; if one fails the other fails the same way. -/
theorem C44_symmetric {c : Cfg} (h : c.N.MulLaws) (hd : c.D.distance = Angular.distance (L := c.L) c.C) (s : Idx c) (w : World) (i j : Nat) :
    s.getDistance w i j = s.getDistance w j i := by
  unfold Idx.getDistance
  rw [hd]
  have e : ∀ k, (∃ a, getNode c.L (s.mem w) k = .ok a) ∨ getNode c.L (s.mem w) k = .error .oob := by
    intro k
    unfold getNode
    split
    · exact .inl ⟨_, rfl⟩
    · exact .inr rfl
  rcases e i with ⟨a, ha⟩ | ha <;> rcases e j with ⟨b, hb⟩ | hb <;> simp only [ha, hb, bind, Except.bind]
  unfold Angular.distance
  rw [Vec.cosDistance_comm h]

section
variable {N : Num} (h : N.MulLaws) (C : Codec N.V) (R : Rng) (sortIds : List Nat → List Nat) (sortP : List (N.V × Nat) → List (N.V × Nat)) (k f : Nat)
  (w : World) (i j : Nat)
include h

theorem C44_angular (s : Idx (angularCfg N C R sortIds sortP k f)) : s.getDistance w i j = s.getDistance w j i :=
  C44_symmetric (c := angularCfg N C R sortIds sortP k f) h rfl s w i j

theorem C44_dot (s : Idx (dotCfg N C R sortIds sortP k f)) : s.getDistance w i j = s.getDistance w j i :=
  C44_symmetric (c := dotCfg N C R sortIds sortP k f) h rfl s w i j

end

/-- The four configurations of the repository. -/
theorem C44_angular32 (k f : Nat) (s : Idx (angular32 k f)) (w : World) (i j : Nat) : s.getDistance w i j = s.getDistance w j i :=
  C44_angular ieee32_mulLaws _ _ _ _ k f w i j s

theorem C44_angular64 (k f : Nat) (s : Idx (angular64 k f)) (w : World) (i j : Nat) : s.getDistance w i j = s.getDistance w j i :=
  C44_angular ieee64_mulLaws _ _ _ _ k f w i j s

theorem C44_dot32 (k f : Nat) (s : Idx (dot32 k f)) (w : World) (i j : Nat) : s.getDistance w i j = s.getDistance w j i :=
  C44_dot ieee32_mulLaws _ _ _ _ k f w i j s

theorem C44_dot64 (k f : Nat) (s : Idx (dot64 k f)) (w : World) (i j : Nat) : s.getDistance w i j = s.getDistance w j i :=
  C44_dot ieee64_mulLaws _ _ _ _ k f w i j s

/-- Not vacuous: the formula itself is not symmetric for lack of commutative additions or the like; here are two vectors of lengths 1 and 5 with a
distance that is neither 0 nor 2. -/
example : angularFormula ieee32 [x32 0x3F800000, x32 0] [x32 0x40400000, x32 0x40800000] = x32 0x3F4CCCCC := by decide +kernel

/-! ### C66, C47: the value -/

section
variable {N : Num} {C : Codec N.V} {R : Rng} {sortIds : List Nat → List Nat} {sortP : List (N.V × Nat) → List (N.V × Nat)} {k f : Nat}
  {numCPU : Nat} {pol : BuildPolicy} {trees workers : Int}

theorem Session.getDistance_canon {c : Cfg} {adds : List (Nat × List c.N.V)} {s s' : Idx c} (h : Session c numCPU pol adds trees workers s s')
    (w : World) {i j : Nat} {v u : List c.N.V} (hi : lastAdded adds i = some v) (hj : lastAdded adds j = some u) :
    s'.getDistance w i j = .ok (c.D.normalizedDistance (c.D.distance (canon c v) 0 (canon c u) 0)) ∧
      v.length = c.L.f ∧ u.length = c.L.f := by
  obtain ⟨N0, B, _⟩ := h.built
  have hnn := B.n_le_nNodes
  have hib := B.bound i v hi
  have hjb := B.bound j u hj
  have hvi := B.items i v hi
  have hvj := B.items j u hj
  refine ⟨?_, hvi.vec ▸ by simp [Node.vec], hvj.vec ▸ by simp [Node.vec]⟩
  have hmem := (B.mem_eq w (by omega)).1
  simp only [Idx.getDistance, B.getNode w (show i < s'.nNodes by omega), B.getNode w (show j < s'.nNodes by omega), bind, Except.bind]
  rw [hmem]
  congr 2
  exact h.wf.distance _ _ _ _ _ _ _ _ (hvi.same_canon h.wf) (hvj.same_canon h.wf)

/-- **C66**: on a built angular index `GetDistance(i, j)` is the square root of the textbook formula on the vectors last added as `i` and `j`. -/
theorem C66_angular_value (hN : N.MulLaws) {adds : List (Nat × List N.V)} {s s' : Idx (angularCfg N C R sortIds sortP k f)}
    (h : Session (angularCfg N C R sortIds sortP k f) numCPU pol adds trees workers s s') (w : World) {i j : Nat} {v u : List N.V}
    (hi : lastAdded adds i = some v) (hj : lastAdded adds j = some u) :
    s'.getDistance w i j = .ok (N.sqrt (angularFormula N v u)) := by
  obtain ⟨h1, h2, h3⟩ := h.getDistance_canon w hi hj
  rw [h1]
  congr 2
  have key : ∀ v : List N.V, v.length = f → Node.norm (angularLayout k C.sz f) C (canon (angularCfg N C R sortIds sortP k f) v) 0 = Vec.dot N v v := by
    intro v hv
    have e := Node.vec_setVec (L := angularLayout k C.sz f) C zeros 0 v hv
    refine (Node.norm_setNorm (L := angularLayout k C.sz f) C _ 0 _).trans ?_
    exact congrArg₂ (Vec.dot N) e e
  have kv := canon_vec h.wf h2
  have ku := canon_vec h.wf h3
  show N.sqrt (Vec.cosDistance N _ _ _ _) = N.sqrt _
  rw [← Vec.cosDistance_formula hN v u (.inl rfl) (.inl rfl), key v h2, key u h3]
  exact congrArg N.sqrt <| congrArg₂ (Vec.cosDistance N (Vec.dot N v v) (Vec.dot N u u)) kv ku

/-- **C47, what the code does instead**: on a built dot product index `GetDistance(i, j)` is minus the *angular* formula (no square root) on
the vectors last added. -/
theorem C47_value_partial (hN : N.MulLaws) (hz : N.eq (C.dec (List.replicate C.sz 0)) N.zero = true) {adds : List (Nat × List N.V)}
    {s s' : Idx (dotCfg N C R sortIds sortP k f)}
    (h : Session (dotCfg N C R sortIds sortP k f) numCPU pol adds trees workers s s') (w : World) {i j : Nat} {v u : List N.V}
    (hi : lastAdded adds i = some v) (hj : lastAdded adds j = some u) :
    s'.getDistance w i j = .ok (N.neg (angularFormula N v u)) := by
  obtain ⟨h1, h2, h3⟩ := h.getDistance_canon w hi hj
  rw [h1]
  congr 2
  have key : ∀ v : List N.V, v.length = f → Node.norm (dotLayout k C.sz f) C (canon (dotCfg N C R sortIds sortP k f) v) 0 =
      C.dec (List.replicate C.sz 0) := by
    intro v hv
    unfold Node.norm
    congr 1
    apply List.ext_getElem
    · simp
    · intro j h1 h2
      have hj : j < C.sz := by simpa using h1
      have hoff : 3 * k ≤ (dotLayout k C.sz f).offV := h.wf.layout.offV_ge
      have hnf : C.sz ≤ 2 * k := h.wf.layout.norm_fits
      have : canon (dotCfg N C R sortIds sortP k f) v (0 + k + j) = 0 := by
        show Node.setVec (dotLayout k C.sz f) C zeros 0 v _ = 0
        rw [Node.setVec_frame C _ _ _ _ (.inl (by omega))]
        rfl
      have hr : (readBytes (canon (dotCfg N C R sortIds sortP k f) v) (0 + k) C.sz)[j]'h1 =
          canon (dotCfg N C R sortIds sortP k f) v (0 + k + j) := by simp [readBytes]
      exact hr.trans (this.trans (by simp))
  have kv := canon_vec h.wf h2
  have ku := canon_vec h.wf h3
  show N.neg (Vec.cosDistance N _ _ _ _) = N.neg _
  rw [← Vec.cosDistance_formula hN v u (.inr hz) (.inr hz), key v h2, key u h3]
  exact congrArg N.neg <| congrArg₂ (Vec.cosDistance N (C.dec (List.replicate C.sz 0)) (C.dec (List.replicate C.sz 0))) kv ku

end

/-- The cached norm of a dot product item is never written and stays zero. -/
theorem bvCodec4_zero : ieee32.eq ((bvCodec 4).dec (List.replicate 4 0)) ieee32.zero = true := by decide
theorem bvCodec8_zero : ieee64.eq ((bvCodec 8).dec (List.replicate 8 0)) ieee64.zero = true := by decide

/-- The repository's `float32` dot product index with alternating sides. -/
def altDot32 (f : Nat) : Cfg := dotCfg ieee32 (bvCodec 4) altRng sortNat (sortPairs ieee32) 4 f

/-- **C47 is false**: on every built `float32` dot product index, whatever the generator, trees and workers, two items `(2, 0)` and `(3, 0)` with inner
product 6 have `GetDistance` minus zero. -/
theorem C47_refuted {R : Rng} {numCPU : Nat} {pol : BuildPolicy} {trees workers : Int} {adds : List (Nat × List ieee32.V)}
    {s s' : Idx (dotCfg ieee32 (bvCodec 4) R sortNat (sortPairs ieee32) 4 2)}
    (h : Session (dotCfg ieee32 (bvCodec 4) R sortNat (sortPairs ieee32) 4 2) numCPU pol adds trees workers s s') (w : World) {i j : Nat}
    (hi : lastAdded adds i = some [x32 0x40000000, x32 0]) (hj : lastAdded adds j = some [x32 0x40400000, x32 0]) :
    Vec.dot ieee32 [x32 0x40000000, x32 0] [x32 0x40400000, x32 0] = x32 0x40C00000 ∧ s'.getDistance w i j = .ok (x32 0x80000000) := by
  refine ⟨by decide +kernel, (C47_value_partial ieee32_mulLaws bvCodec4_zero h w hi hj).trans ?_⟩
  have : ieee32.neg (angularFormula ieee32 [x32 0x40000000, x32 0] [x32 0x40400000, x32 0]) = x32 0x80000000 := by decide +kernel
  exact congrArg Except.ok this

/-- There is such an index. -/
def twoOnALine : List (Nat × List ieee32.V) := [(0, [x32 0x40000000, x32 0]), (1, [x32 0x40400000, x32 0])]

example : ∃ s s', Session (altDot32 2) 1 .single twoOnALine 1 1 s s' ∧ lastAdded twoOnALine 0 = some [x32 0x40000000, x32 0] ∧
    lastAdded twoOnALine 1 = some [x32 0x40400000, x32 0] := by
  have hb : EventuallyBalanced (altDot32 2) := by
    intro ids r h2 hlt
    obtain ⟨l, rt, b', h1, h3, h4⟩ := alternating (c := altDot32 2) (fun b => b) (fun _ => rfl) ids r
    refine ⟨0, ?_⟩
    have e : drawSides (altDot32 2) ids (0 + 1) r = (l, rt, b') := by
      unfold drawSides
      rw [h1]
      rfl
    rw [e]
    have hlt : ids.length < 2 ^ 32 := hlt
    apply imbalanceLe99_near <;> cases r <;> simp at h3 h4 <;> simp <;> omega
  obtain ⟨s, s', _, h, h1, _⟩ := C10_single (c := altDot32 2) (dot_wf (externals_concrete ieee32_lawful) (Or.inl rfl) (Or.inl rfl) (by decide))
    (Conc.dot_total altRng_inRange (by decide)) hb 1 twoOnALine
    (legalAdds_of (by decide +kernel)) false 0 1 1 (by decide +kernel)
  exact ⟨s, s', h, by decide +kernel, by decide +kernel⟩

/-! ### C45 -/

/-- `√x` is a number exactly for numbers that are not negative. -/
theorem ieee32_sqrt_ordinary (x : ieee32.V) : ieee32.Ordinary (ieee32.sqrt x) ↔ ieee32.Ordinary x ∧ ieee32.lt x ieee32.zero = false := by
  have hc : Ieee.conv Ieee.f64 Ieee.f32 (Ieee.f64.sqrt (Ieee.conv Ieee.f32 Ieee.f64 (BitVec.toNat x))) < 2 ^ 32 :=
    Ieee.conv_lt Ieee.f32_ok _
  show Ieee.f32.eq (BitVec.ofNat 32 _).toNat (BitVec.ofNat 32 _).toNat = true ↔ Ieee.f32.eq (BitVec.toNat x) _ = true ∧ Ieee.f32.lt (BitVec.toNat x) 0 = false
  rw [BitVec.toNat_ofNat, Nat.mod_eq_of_lt hc, Ieee.Fmt.eq_self, Ieee.Fmt.eq_self, Ieee.conv_nan Ieee.f32_ok,
    Ieee.Fmt.sqrt_nan Ieee.f64_ok, Ieee.conv_nan Ieee.f64_ok, Ieee.conv_lt_zero Ieee.f32_ok Ieee.f64_ok (by decide)]
  simp

theorem ieee64_sqrt_ordinary (x : ieee64.V) : ieee64.Ordinary (ieee64.sqrt x) ↔ ieee64.Ordinary x ∧ ieee64.lt x ieee64.zero = false := by
  have hc : Ieee.f64.sqrt (BitVec.toNat x) < 2 ^ 64 := Ieee.Fmt.sqrt_lt Ieee.f64_ok (BitVec.isLt x)
  show Ieee.f64.eq (BitVec.ofNat 64 _).toNat (BitVec.ofNat 64 _).toNat = true ↔ Ieee.f64.eq (BitVec.toNat x) _ = true ∧ Ieee.f64.lt (BitVec.toNat x) 0 = false
  rw [BitVec.toNat_ofNat, Nat.mod_eq_of_lt hc, Ieee.Fmt.eq_self, Ieee.Fmt.eq_self, Ieee.Fmt.sqrt_nan Ieee.f64_ok]
  simp

/-- **C45, what holds**: on a built angular index `GetDistance(i, j)` is a number exactly when the formula gives one that is not negative.  Missing
for the full claim: rounding can make the formula negative, `C45_refuted`.  (`hs` holds for both float types.) -/
theorem C45_number_partial {N : Num} (hN : N.MulLaws) (hs : ∀ x, N.Ordinary (N.sqrt x) ↔ N.Ordinary x ∧ N.lt x N.zero = false)
    {C : Codec N.V} {R : Rng} {sortIds sortP} {k f numCPU : Nat} {pol : BuildPolicy} {trees workers : Int}
    {adds : List (Nat × List N.V)} {s s' : Idx (angularCfg N C R sortIds sortP k f)}
    (h : Session (angularCfg N C R sortIds sortP k f) numCPU pol adds trees workers s s') (w : World) {i j : Nat} {v u : List N.V}
    (hi : lastAdded adds i = some v) (hj : lastAdded adds j = some u) :
    ∃ d : N.V, s'.getDistance w i j = .ok d ∧
      (N.Ordinary d ↔ N.Ordinary (angularFormula N v u) ∧ N.lt (angularFormula N v u) N.zero = false) :=
  ⟨_, C66_angular_value hN h w hi hj, hs _⟩

/-- **C45 is false**: on every built `float32` angular index, whatever the generator, trees and workers, the items `(0.3, 0)` and `(0.9, 0)` have a
`GetDistance` that is NaN. -/
theorem C45_refuted {R : Rng} {numCPU : Nat} {pol : BuildPolicy} {trees workers : Int} {adds : List (Nat × List ieee32.V)}
    {s s' : Idx (angularCfg ieee32 (bvCodec 4) R sortNat (sortPairs ieee32) 4 2)}
    (h : Session (angularCfg ieee32 (bvCodec 4) R sortNat (sortPairs ieee32) 4 2) numCPU pol adds trees workers s s') (w : World) {i j : Nat}
    (hi : lastAdded adds i = some [x32 0x3E99999A, x32 0]) (hj : lastAdded adds j = some [x32 0x3F666666, x32 0]) :
    ∃ d : ieee32.V, s'.getDistance w i j = .ok d ∧ ¬ ieee32.Ordinary d :=
  ⟨_, C66_angular_value ieee32_mulLaws h w hi hj, by decide +kernel⟩

/-- There is such an index. -/
def nanPair : List (Nat × List ieee32.V) := [(0, [x32 0x3E99999A, x32 0]), (1, [x32 0x3F666666, x32 0])]

example : ∃ s s', Session (alt32 2) 1 .single nanPair 1 1 s s' ∧ lastAdded nanPair 0 = some [x32 0x3E99999A, x32 0] ∧
    lastAdded nanPair 1 = some [x32 0x3F666666, x32 0] := by
  obtain ⟨s, s', _, h, h1, _⟩ := C10_single (c := alt32 2) (alt32_wf (by decide))
    (Conc.angular_total altRng_inRange (by decide)) (alt32_balanced 2) 1 nanPair
    (legalAdds_of (by decide +kernel)) false 0 1 1 (by decide +kernel)
  exact ⟨s, s', h, by decide +kernel, by decide +kernel⟩

end Annoy
