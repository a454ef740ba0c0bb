import Verif.Props.Geometry
import Verif.Proof.Total
/-!
# Hyperplanes (C50)

`C50_create_split` says, in the arithmetic of the code, that the normal vector of a split is the normalized difference of two vectors;
`C50_normalize` says what normalizing does in exact arithmetic.
-/
namespace Annoy

section
variable {N : Num} {R : Rng} (C : Codec N.V) {L : Layout}

theorem normalize_length (v : List N.V) : (Vec.normalize N v).length = v.length := by
  unfold Vec.normalize
  dsimp only
  split <;> simp

/-- **C50**: what `CreateSplit` of the angular distance leaves in the node: the normalized difference of the two centroids. -/
theorem C50_create_split {mem m m' : Bytes} {addrs : List Nat} {r r' : R.σ}
    (h : Angular.createSplit (L := L) C mem addrs r m = .ok (m', r')) :
    ∃ (p q : Bytes), twoMeans (L := L) C mem addrs r true (Angular.distance (L := L) C) (Angular.normalize (L := L) C)
        (Angular.initNode (L := L) C) = .ok (p, q, r') ∧
      Node.vec L C m' 0 = Vec.normalize N (List.zipWith N.sub (Node.vec L C p 0) (Node.vec L C q 0)) := by
  unfold Angular.createSplit at h
  cases e : twoMeans (L := L) C mem addrs r true (Angular.distance (L := L) C) (Angular.normalize (L := L) C) (Angular.initNode (L := L) C) with
  | error x => rw [e] at h; cases h
  | ok y =>
    obtain ⟨p, q, r1⟩ := y
    rw [e] at h
    simp only [bind, Except.bind, Except.ok.injEq, Prod.mk.injEq] at h
    obtain ⟨h1, rfl⟩ := h
    refine ⟨p, q, rfl, ?_⟩
    have hl : (List.zipWith N.sub (Node.vec L C p 0) (Node.vec L C q 0)).length = L.f := by simp [Node.vec]
    rw [← h1]
    unfold Angular.normalize
    rw [Node.vec_setVec C _ _ _ (by rw [normalize_length]; simp [Node.vec]), Node.vec_setVec C _ _ _ hl]

/-- The same for the dot product distance: the vector part of its `Normalize` is the same function. -/
theorem C50_create_split_dot (hsz : C.sz ≤ L.offV) {mem m m' : Bytes} {addrs : List Nat} {r r' : R.σ}
    (h : DotProduct.createSplit (L := L) C mem addrs r m = .ok (m', r')) :
    ∃ (p q : Bytes), twoMeans (L := L) C mem addrs r true (Angular.distance (L := L) C) (DotProduct.normalize (L := L) C)
        (fun b _ => b) = .ok (p, q, r') ∧
      Node.vec L C m' 0 = Vec.normalize N (List.zipWith N.sub (Node.vec L C p 0) (Node.vec L C q 0)) := by
  unfold DotProduct.createSplit at h
  cases e : twoMeans (L := L) C mem addrs r true (Angular.distance (L := L) C) (DotProduct.normalize (L := L) C) (fun b _ => b) with
  | error x => rw [e] at h; cases h
  | ok y =>
    obtain ⟨p, q, r1⟩ := y
    rw [e] at h
    simp only [bind, Except.bind, Except.ok.injEq, Prod.mk.injEq] at h
    obtain ⟨h1, rfl⟩ := h
    refine ⟨p, q, rfl, ?_⟩
    set nv := List.zipWith N.sub (Node.vec L C p 0) (Node.vec L C q 0) with hnv
    have hl : nv.length = L.f := by simp [hnv, Node.vec]
    have hv : Node.vec L C (Node.setVec L C m 0 nv) 0 = nv := Node.vec_setVec C _ _ _ hl
    rw [← h1]
    unfold DotProduct.normalize Vec.normalize
    dsimp only
    rw [hv]
    split
    · rw [← Node.vec_setVec (L := L) C (Node.setVec L C m 0 nv) 0 (nv.map fun x => N.div x (Vec.getNorm N nv)) (by simpa using hl)]
      apply Node.vec_congr
      intro j hj
      rw [Node.vec_setVec (L := L) C (Node.setVec L C m 0 nv) 0 (nv.map fun x => N.div x (Vec.getNorm N nv)) (by simpa using hl)]
      exact Node.setDotFactor_frame _ _ _ _ _ hsz (Or.inr (by omega))
    · exact hv

end

/-- `CreateSplit` succeeds on two items or more, whatever they hold. -/
example (b m : Bytes) (addrs : List Nat) (h : 2 ≤ addrs.length) (r : altRng.σ) :
    ∃ y, Angular.createSplit (N := ieee32) (R := altRng) (L := angularLayout 4 4 3) (bvCodec 4) b addrs r m = .ok y := by
  have ht := (Conc.angular_total (N := ieee32) (C := bvCodec 4) (sortIds := sortNat) (sortP := sortPairs ieee32) (k := 4) (f := 3) altRng_inRange
    (by decide)).createSplit b addrs r m
  cases e : Angular.createSplit (N := ieee32) (R := altRng) (L := angularLayout 4 4 3) (bvCodec 4) b addrs r m with
  | ok y => exact ⟨y, rfl⟩
  | error x => exact absurd e (ht x h)

/-- **C50**, exact arithmetic: `Normalize` maps the zero vector to itself and every other vector to the vector of length 1 in the same direction. -/
theorem C50_normalize {n : Nat} {v : List ℝ} (hv : v.length = n) :
    ((∀ x ∈ v, x = 0) → Vec.normalize realNum v = v) ∧
    ((∃ x ∈ v, x ≠ 0) → ‖pt n (Vec.normalize realNum v)‖ = 1 ∧ ∃ t : ℝ, 0 < t ∧ Vec.normalize realNum v = v.map (t * ·)) := by
  classical
  have hlt : ∀ x : ℝ, realNum.lt realNum.zero x = true ↔ 0 < x := by
    intro x; show decide ((0 : ℝ) < x) = true ↔ _; simp
  constructor
  · intro h
    unfold Vec.normalize
    dsimp only
    rw [if_neg]
    rw [hlt, C51_norm hv, (pt_eq_zero hv).2 h]
    simp
  · rintro ⟨x, hx, hx0⟩
    have h0 : pt n v ≠ 0 := fun h => hx0 ((pt_eq_zero hv).1 h x hx)
    have hp : 0 < ‖pt n v‖ := norm_pos_iff.2 h0
    have e : Vec.normalize realNum v = v.map (‖pt n v‖⁻¹ * ·) := by
      unfold Vec.normalize
      dsimp only
      rw [if_pos ((hlt _).2 (by rw [C51_norm hv]; exact hp)), C51_norm hv]
      apply List.map_congr_left
      intro x _
      show x / ‖pt n v‖ = _
      rw [div_eq_mul_inv, mul_comm]
    rw [e]
    refine ⟨?_, ‖pt n v‖⁻¹, by positivity, rfl⟩
    have hmap : pt n (v.map (‖pt n v‖⁻¹ * ·)) = ‖pt n v‖⁻¹ • pt n v := by
      ext i
      have hi : (i : Nat) < v.length := hv ▸ i.2
      simp [pt, hi]
    rw [hmap]
    exact unit_norm h0

/-- **C50**, exact arithmetic: a normal vector has length 1 or is zero. -/
theorem C50_unit_or_zero {n : Nat} {p q : List ℝ} (hp : p.length = n) (hq : q.length = n) :
    let v := Vec.normalize realNum (List.zipWith realNum.sub p q)
    ‖pt n v‖ = 1 ∨ ∀ x ∈ v, x = 0 := by
  intro v
  have hl : (List.zipWith realNum.sub p q).length = n := by simp [hp, hq]
  by_cases h : ∀ x ∈ List.zipWith realNum.sub p q, x = 0
  · right
    intro x hx
    have e := (C50_normalize hl).1 h
    exact h x (e ▸ hx)
  · left
    push Not at h
    exact ((C50_normalize hl).2 h).1

/-- `(3, 4)` becomes `(0.6, 0.8)`. -/
example : ‖pt 2 (Vec.normalize realNum [3, 4])‖ = 1 := ((C50_normalize (n := 2) (v := [3, 4]) rfl).2 ⟨3, by simp, by norm_num⟩).1

end Annoy
