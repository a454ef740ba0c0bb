import Verif.Props.Mirror
import Verif.Proof.IeeeFar
/-!
# C133: the opposite query finds the farthest items
-/
namespace Annoy
open Ieee

/-- By the formula `i` is not nearer to the query than `j`, or the two are equally far from its opposite; and by the real distances `i` is not nearer by more than the given error. -/
structure AsFar (N : Num) (m : Nat → Option (List N.V)) (q : List N.V) (δ : Nat → ℝ) (e : ℝ) (i j : Nat) : Prop where
  computed : N.lt (formulaDist N m q i) (formulaDist N m q j) = false ∨ N.eq (formulaDist N m (opposite N q) i) (formulaDist N m (opposite N q) j) = true
  true : δ j ^ 2 ≤ δ i ^ 2 + e

/-- The `k` farthest of the items in `S`, the farthest first. -/
structure Farthest (R : Nat → Nat → Prop) (S : List Nat) (k : Nat) (ids : List Nat) : Prop where
  length : ids.length = min k S.length
  nodup : ids.Nodup
  sub : ∀ i ∈ ids, i ∈ S
  sorted : ids.Pairwise R
  farthest : ∀ i ∈ ids, ∀ j ∈ S, j ∉ ids → R i j

section
variable {N : Num} {val : N.V → ℝ} {Fin : N.V → Prop} {u t M lo hi : ℝ} {n : Nat}

theorem chord_opposite (hval : ∀ x, val (N.neg x) = -val x) (hlo : 0 < lo) {q v : List N.V} (hq : Moderate val Fin lo hi n q) (hv : Moderate val Fin lo hi n v) :
    chord n ((opposite N q).map val) (v.map val) ^ 2 = 4 - chord n (q.map val) (v.map val) ^ 2 := by
  have h1 := unit_norm (norm_pos_iff.1 (lt_of_lt_of_le hlo hq.lower))
  have h2 := unit_norm (norm_pos_iff.1 (lt_of_lt_of_le hlo hv.lower))
  have h3 := parallelogram_law_with_norm ℝ (‖pt n (q.map val)‖⁻¹ • pt n (q.map val)) (‖pt n (v.map val)‖⁻¹ • pt n (v.map val))
  rw [h1, h2] at h3
  unfold chord
  rw [pt_opposite hval, norm_neg, smul_neg, ← neg_add', norm_neg]
  nlinarith

/-- By brute force. -/
theorem bruteForce_farthest (A : Arith N val Fin u t M lo hi n) (hval : ∀ x, val (N.neg x) = -val x) (hfin : ∀ x, Fin x → Fin (N.neg x))
    (hface : ∀ q v x : List N.V, Moderate val Fin lo hi n q → Moderate val Fin lo hi n v → Moderate val Fin lo hi n x →
      N.lt (angularFormula N (opposite N q) v) (angularFormula N (opposite N q) x) = true → N.lt (angularFormula N q v) (angularFormula N q x) = false)
    {adds : List (Nat × List N.V)} (hv : ∀ i v, lastAdded adds i = some v → Moderate val Fin lo hi n v) {q : List N.V} (hq : Moderate val Fin lo hi n q) (k : Nat) :
    Farthest (AsFar N (lastAdded adds) q (trueDist val n (lastAdded adds) q) (2 * sqErr n u)) (addedIds adds) k (bruteForce N adds (opposite N q) k) := by
  have hq' := hq.opposite hval hfin
  have D : ∀ i ∈ addedIds adds, ∃ v, lastAdded adds i = some v := fun i hi => Option.isSome_iff_exists.1 (mem_addedIds.1 hi)
  have ho : ∀ i ∈ addedIds adds, N.Ordinary (formulaDist N (lastAdded adds) (opposite N q) i) := fun i hi => by
    obtain ⟨v, e⟩ := D i hi
    unfold formulaDist
    rw [e]
    exact A.approx.ordinary _ (A.approx.accurate A.scale A.lo0 A.short hq' (hv i v e)).1
  have key : ∀ i ∈ addedIds adds, ∀ j ∈ addedIds adds,
      PairLt N (formulaDist N (lastAdded adds) (opposite N q) i, i) (formulaDist N (lastAdded adds) (opposite N q) j, j) →
      AsFar N (lastAdded adds) q (trueDist val n (lastAdded adds) q) (2 * sqErr n u) i j := by
    intro i hi j hj h
    obtain ⟨v, ei⟩ := D i hi
    obtain ⟨x, ej⟩ := D j hj
    have fi : ∀ p, formulaDist N (lastAdded adds) p i = angularFormula N p v := fun p => by unfold formulaDist; rw [ei]
    have fj : ∀ p, formulaDist N (lastAdded adds) p j = angularFormula N p x := fun p => by unfold formulaDist; rw [ej]
    refine ⟨?_, ?_⟩
    · rw [fi, fj, fi, fj]
      rw [fi, fj] at h
      rcases h with h | h
      · exact Or.inl (hface q v x hq (hv i v ei) (hv j x ej) h)
      · exact Or.inr h.1
    · rw [fi, fj] at h
      obtain ⟨a1, a2⟩ := A.approx.accurate A.scale A.lo0 A.short hq' (hv i v ei)
      obtain ⟨b1, b2⟩ := A.approx.accurate A.scale A.lo0 A.short hq' (hv j x ej)
      have h3 := A.pairLt a1 b1 a2 b2 h
      rw [chord_opposite hval A.lo0 hq (hv i v ei), chord_opposite hval A.lo0 hq (hv j x ej)] at h3
      unfold trueDist
      rw [ei, ej]
      simp only [Option.getD_some]
      linarith
  have T := nearest_topK A.lawful id (liveOf_nodup _ _) ho k
  refine ⟨T.length, T.nodup, T.sub, ?_, fun i hi j hj hn => key i (T.sub i hi) j hj (T.least ho i hi j hj hn)⟩
  exact (List.pairwise_map.1 (T.sorted ho)).imp_of_mem fun hi hj h => key _ (T.sub _ hi) _ (T.sub _ hj) h
end

theorem dot_facing32 : ∀ (q v : List ieee32.V) (s s' : ieee32.V), f32.Alike (BitVec.toNat (w := 32) s') (f32.neg (BitVec.toNat (w := 32) s)) →
    f32.Alike (BitVec.toNat (w := 32) (Vec.dotFrom ieee32 s' (opposite ieee32 q) v)) (f32.neg (BitVec.toNat (w := 32) (Vec.dotFrom ieee32 s q v)))
  | [], _, _, _, h => h
  | _ :: _, [], _, _, h => h
  | _ :: q, _ :: v, _, _, h => dot_facing32 q v _ _ (MirrorBV.step₂ f32_ok (w := 32) (by decide) h)

/-- The formula for a query and for its opposite. -/
theorem formula_facing32 {q v : List ieee32.V} (hf : fin32 (angularFormula ieee32 q v)) :
    f32.Facing (f32.real f32.two) (BitVec.toNat (w := 32) (angularFormula ieee32 q v)) (BitVec.toNat (w := 32) (angularFormula ieee32 (opposite ieee32 q) v)) := by
  have hqq : Vec.dot ieee32 (opposite ieee32 q) (opposite ieee32 q) = Vec.dot ieee32 q q := dotFrom_mirror ieee32_mirror q q _
  have ha : f32.Alike (BitVec.toNat (w := 32) (Vec.dot ieee32 (opposite ieee32 q) v)) (f32.neg (BitVec.toNat (w := 32) (Vec.dot ieee32 q v))) :=
    dot_facing32 q v _ _ (Or.inr (Or.inl ⟨by decide, by decide⟩))
  unfold angularFormula at hf ⊢
  rw [hqq]
  split
  · rename_i hp
    rw [if_pos hp] at hf
    exact MirrorBV.facing f32_ok (w := 32) (c := BitVec.ofNat 32 f32.two) (by decide) (by unfold Fmt.Finite; decide) ha hf
  · exact Fmt.facing_self (F := f32) (x := f32.two) (by decide) (by unfold Fmt.Finite; decide)

theorem facing32 {n : Nat} (hn : n ≤ 2 ^ 17) (q v x : List ieee32.V) (hq : Moderate32 n q) (hv : Moderate32 n v) (hx : Moderate32 n x)
    (h : ieee32.lt (angularFormula ieee32 (opposite ieee32 q) v) (angularFormula ieee32 (opposite ieee32 q) x) = true) :
    ieee32.lt (angularFormula ieee32 q v) (angularFormula ieee32 q x) = false := by
  have A := arith32 hn
  have f : ∀ p y, Moderate32 n p → Moderate32 n y → fin32 (angularFormula ieee32 p y) := fun p y hp hy => (A.approx.accurate A.scale A.lo0 A.short hp hy).1
  exact (formula_facing32 (f q v hq hv)).lt (formula_facing32 (f q x hq hx)) (f q v hq hv) (f _ v (opposite32 hq) hv) (f q x hq hx) (f _ x (opposite32 hq) hx) h

theorem bruteForce_farthest32 {n : Nat} (hn : n ≤ 2 ^ 17) {adds : List (Nat × List ieee32.V)} (hv : ∀ i v, lastAdded adds i = some v → Moderate32 n v)
    {q : List ieee32.V} (hq : Moderate32 n q) (k : Nat) :
    Farthest (AsFar ieee32 (lastAdded adds) q (trueDist val32 n (lastAdded adds) q) (2 * sqErr n (2 ^ (-24 : Int)))) (addedIds adds) k
      (bruteForce ieee32 adds (opposite ieee32 q) k) :=
  bruteForce_farthest (arith32 hn) (fun x => MirrorBV.real (F := f32) (w := 32) (by decide) x) (fun x hx => MirrorBV.finite (F := f32) (w := 32) (by decide) x hx)
    (facing32 hn) hv hq k

theorem dot_facing64 : ∀ (q v : List ieee64.V) (s s' : ieee64.V), f64.Alike (BitVec.toNat (w := 64) s') (f64.neg (BitVec.toNat (w := 64) s)) →
    f64.Alike (BitVec.toNat (w := 64) (Vec.dotFrom ieee64 s' (opposite ieee64 q) v)) (f64.neg (BitVec.toNat (w := 64) (Vec.dotFrom ieee64 s q v)))
  | [], _, _, _, h => h
  | _ :: _, [], _, _, h => h
  | _ :: q, _ :: v, _, _, h => dot_facing64 q v _ _ (MirrorBV.step₂ f64_ok (w := 64) (by decide) h)

/-- The formula for a query and for its opposite. -/
theorem formula_facing64 {q v : List ieee64.V} (hf : fin64 (angularFormula ieee64 q v)) :
    f64.Facing (f64.real f64.two) (BitVec.toNat (w := 64) (angularFormula ieee64 q v)) (BitVec.toNat (w := 64) (angularFormula ieee64 (opposite ieee64 q) v)) := by
  have hqq : Vec.dot ieee64 (opposite ieee64 q) (opposite ieee64 q) = Vec.dot ieee64 q q := dotFrom_mirror ieee64_mirror q q _
  have ha : f64.Alike (BitVec.toNat (w := 64) (Vec.dot ieee64 (opposite ieee64 q) v)) (f64.neg (BitVec.toNat (w := 64) (Vec.dot ieee64 q v))) :=
    dot_facing64 q v _ _ (Or.inr (Or.inl ⟨by decide, by decide⟩))
  unfold angularFormula at hf ⊢
  rw [hqq]
  split
  · rename_i hp
    rw [if_pos hp] at hf
    exact MirrorBV.facing f64_ok (w := 64) (c := BitVec.ofNat 64 f64.two) (by decide) (by unfold Fmt.Finite; decide) ha hf
  · exact Fmt.facing_self (F := f64) (x := f64.two) (by decide) (by unfold Fmt.Finite; decide)

theorem facing64 {n : Nat} (hn : n ≤ 2 ^ 46) (q v x : List ieee64.V) (hq : Moderate64 n q) (hv : Moderate64 n v) (hx : Moderate64 n x)
    (h : ieee64.lt (angularFormula ieee64 (opposite ieee64 q) v) (angularFormula ieee64 (opposite ieee64 q) x) = true) :
    ieee64.lt (angularFormula ieee64 q v) (angularFormula ieee64 q x) = false := by
  have A := arith64 hn
  have f : ∀ p y, Moderate64 n p → Moderate64 n y → fin64 (angularFormula ieee64 p y) := fun p y hp hy => (A.approx.accurate A.scale A.lo0 A.short hp hy).1
  exact (formula_facing64 (f q v hq hv)).lt (formula_facing64 (f q x hq hx)) (f q v hq hv) (f _ v (opposite64 hq) hv) (f q x hq hx) (f _ x (opposite64 hq) hx) h

theorem bruteForce_farthest64 {n : Nat} (hn : n ≤ 2 ^ 46) {adds : List (Nat × List ieee64.V)} (hv : ∀ i v, lastAdded adds i = some v → Moderate64 n v)
    {q : List ieee64.V} (hq : Moderate64 n q) (k : Nat) :
    Farthest (AsFar ieee64 (lastAdded adds) q (trueDist val64 n (lastAdded adds) q) (2 * sqErr n (2 ^ (-53 : Int)))) (addedIds adds) k
      (bruteForce ieee64 adds (opposite ieee64 q) k) :=
  bruteForce_farthest (arith64 hn) (fun x => MirrorBV.real (F := f64) (w := 64) (by decide) x) (fun x hx => MirrorBV.finite (F := f64) (w := 64) (by decide) x hx)
    (facing64 hn) hv hq k

section
variable {R : Rng} {sI : List Nat → List Nat} {sP : List (ieee32.V × Nat) → List (ieee32.V × Nat)} {ix n numCPU : Nat}
  {pol : BuildPolicy} {adds : List (Nat × List ieee32.V)} {trees workers : Int} {s s' : Idx (angularCfg ieee32 (bvCodec 4) R sI sP ix n)}

/-- **C133 for `float32`**, angular indexes, vectors of at least `3 * sizeof(TIX)` components and of moderate norm, budgets of at least the number of items: the answer to
the opposite of `q` are the items farthest from `q`, the farthest first. -/
theorem C133_float32 (h : Session (angularCfg ieee32 (bvCodec 4) R sI sP ix n) numCPU pol adds trees workers s s')
    (hix : 3 * ix ≤ n) (hn : n ≤ 2 ^ 17) (hv : ∀ i v, lastAdded adds i = some v → Moderate32 n v) {q : List ieee32.V} (hq : Moderate32 n q)
    (hroots : s'.roots ≠ []) (w : World) {k b : Int} {fuel : Nat} {ctx ctx' : Ctx (angularCfg ieee32 (bvCodec 4) R sI sP ix n)} {ids : List Nat}
    {ds : List ieee32.V} (hb : ((addedIds adds).length : Int) ≤ (if b = -1 then k * s'.roots.length else b))
    (hr : s'.getNnsByVector fuel w (opposite ieee32 q) k b ctx = .ok (ids, ds, ctx')) :
    Farthest (AsFar ieee32 (lastAdded adds) q (trueDist val32 n (lastAdded adds) q) (2 * sqErr n (2 ^ (-24 : Int)))) (addedIds adds) k.toNat ids := by
  rw [(C129_float32 h hix hn hv (opposite32 hq) hroots w hb hr).1]
  exact bruteForce_farthest32 hn hv hq _

/-- **C133 for `float32`**, angular, loaded indexes. -/
theorem C133_loaded_float32 (h : Session (angularCfg ieee32 (bvCodec 4) R sI sP ix n) numCPU pol adds trees workers s s')
    (hix : 3 * ix ≤ n) (hn : n ≤ 2 ^ 17) (hv : ∀ i v, lastAdded adds i = some v → Moderate32 n v) {q : List ieee32.V} (hq : Moderate32 n q)
    (hroots : s'.roots ≠ []) (h2 : 2 ≤ slotCount adds)
    (hcp : (angularCfg ieee32 (bvCodec 4) R sI sP ix n).L.CopiesKept (slotCount adds)) {w : World} {path : String} (hf : FileOf s' w path)
    {bk : Backend} {x y : Idx (angularCfg ieee32 (bvCodec 4) R sI sP ix n)} (hl : x.load bk w path = .ok (.nil, y))
    {k b : Int} {fuel : Nat} {ctx ctx' : Ctx (angularCfg ieee32 (bvCodec 4) R sI sP ix n)} {ids : List Nat}
    {ds : List ieee32.V} (hb : ((addedIds adds).length : Int) ≤ (if b = -1 then k * y.roots.length else b))
    (hr : y.getNnsByVector fuel w (opposite ieee32 q) k b ctx = .ok (ids, ds, ctx')) :
    Farthest (AsFar ieee32 (lastAdded adds) q (trueDist val32 n (lastAdded adds) q) (2 * sqErr n (2 ^ (-24 : Int)))) (addedIds adds) k.toNat ids := by
  rw [(C129_loaded_float32 h hix hn hv (opposite32 hq) hroots h2 hcp hf hl hb hr).1]
  exact bruteForce_farthest32 hn hv hq _
end

section
variable {R : Rng} {sI : List Nat → List Nat} {sP : List (ieee64.V × Nat) → List (ieee64.V × Nat)} {ix n numCPU : Nat}
  {pol : BuildPolicy} {adds : List (Nat × List ieee64.V)} {trees workers : Int} {s s' : Idx (angularCfg ieee64 (bvCodec 8) R sI sP ix n)}

/-- **C133 for `float64`**, angular indexes, vectors of at least `3 * sizeof(TIX)` components and of moderate norm, budgets of at least the number of items: the answer to
the opposite of `q` are the items farthest from `q`, the farthest first. -/
theorem C133_float64 (h : Session (angularCfg ieee64 (bvCodec 8) R sI sP ix n) numCPU pol adds trees workers s s')
    (hix : 3 * ix ≤ n) (hn : n ≤ 2 ^ 46) (hv : ∀ i v, lastAdded adds i = some v → Moderate64 n v) {q : List ieee64.V} (hq : Moderate64 n q)
    (hroots : s'.roots ≠ []) (w : World) {k b : Int} {fuel : Nat} {ctx ctx' : Ctx (angularCfg ieee64 (bvCodec 8) R sI sP ix n)} {ids : List Nat}
    {ds : List ieee64.V} (hb : ((addedIds adds).length : Int) ≤ (if b = -1 then k * s'.roots.length else b))
    (hr : s'.getNnsByVector fuel w (opposite ieee64 q) k b ctx = .ok (ids, ds, ctx')) :
    Farthest (AsFar ieee64 (lastAdded adds) q (trueDist val64 n (lastAdded adds) q) (2 * sqErr n (2 ^ (-53 : Int)))) (addedIds adds) k.toNat ids := by
  rw [(C129_float64 h hix hn hv (opposite64 hq) hroots w hb hr).1]
  exact bruteForce_farthest64 hn hv hq _

/-- **C133 for `float64`**, angular, loaded indexes. -/
theorem C133_loaded_float64 (h : Session (angularCfg ieee64 (bvCodec 8) R sI sP ix n) numCPU pol adds trees workers s s')
    (hix : 3 * ix ≤ n) (hn : n ≤ 2 ^ 46) (hv : ∀ i v, lastAdded adds i = some v → Moderate64 n v) {q : List ieee64.V} (hq : Moderate64 n q)
    (hroots : s'.roots ≠ []) (h2 : 2 ≤ slotCount adds)
    (hcp : (angularCfg ieee64 (bvCodec 8) R sI sP ix n).L.CopiesKept (slotCount adds)) {w : World} {path : String} (hf : FileOf s' w path)
    {bk : Backend} {x y : Idx (angularCfg ieee64 (bvCodec 8) R sI sP ix n)} (hl : x.load bk w path = .ok (.nil, y))
    {k b : Int} {fuel : Nat} {ctx ctx' : Ctx (angularCfg ieee64 (bvCodec 8) R sI sP ix n)} {ids : List Nat}
    {ds : List ieee64.V} (hb : ((addedIds adds).length : Int) ≤ (if b = -1 then k * y.roots.length else b))
    (hr : y.getNnsByVector fuel w (opposite ieee64 q) k b ctx = .ok (ids, ds, ctx')) :
    Farthest (AsFar ieee64 (lastAdded adds) q (trueDist val64 n (lastAdded adds) q) (2 * sqErr n (2 ^ (-53 : Int)))) (addedIds adds) k.toNat ids := by
  rw [(C129_loaded_float64 h hix hn hv (opposite64 hq) hroots h2 hcp hf hl hb hr).1]
  exact bruteForce_farthest64 hn hv hq _
end

section
variable {R : Rng} {sI : List Nat → List Nat} {sP : List (ieee32.V × Nat) → List (ieee32.V × Nat)} {ix n numCPU : Nat}
  {pol : BuildPolicy} {adds : List (Nat × List ieee32.V)} {trees workers : Int} {s s' : Idx (dotCfg ieee32 (bvCodec 4) R sI sP ix n)}

/-- **C133 for `float32`**, dot product indexes, vectors of at least `3 * sizeof(TIX)` components and of moderate norm, budgets of at least the number of items: the answer to
the opposite of `q` are the items farthest from `q`, the farthest first. -/
theorem C133_dot32 (h : Session (dotCfg ieee32 (bvCodec 4) R sI sP ix n) numCPU pol adds trees workers s s')
    (hix : 3 * ix ≤ n) (hn : n ≤ 2 ^ 17) (hv : ∀ i v, lastAdded adds i = some v → Moderate32 n v) {q : List ieee32.V} (hq : Moderate32 n q)
    (hroots : s'.roots ≠ []) (w : World) {k b : Int} {fuel : Nat} {ctx ctx' : Ctx (dotCfg ieee32 (bvCodec 4) R sI sP ix n)} {ids : List Nat}
    {ds : List ieee32.V} (hb : ((addedIds adds).length : Int) ≤ (if b = -1 then k * s'.roots.length else b))
    (hr : s'.getNnsByVector fuel w (opposite ieee32 q) k b ctx = .ok (ids, ds, ctx')) :
    Farthest (AsFar ieee32 (lastAdded adds) q (trueDist val32 n (lastAdded adds) q) (2 * sqErr n (2 ^ (-24 : Int)))) (addedIds adds) k.toNat ids := by
  rw [(C129_dot32 h hix hn hv (opposite32 hq) hroots w hb hr).1]
  exact bruteForce_farthest32 hn hv hq _

/-- **C133 for `float32`**, dot product, loaded indexes. -/
theorem C133_loaded_dot32 (h : Session (dotCfg ieee32 (bvCodec 4) R sI sP ix n) numCPU pol adds trees workers s s')
    (hix : 3 * ix ≤ n) (hn : n ≤ 2 ^ 17) (hv : ∀ i v, lastAdded adds i = some v → Moderate32 n v) {q : List ieee32.V} (hq : Moderate32 n q)
    (hroots : s'.roots ≠ []) (h2 : 2 ≤ slotCount adds)
    (hcp : (dotCfg ieee32 (bvCodec 4) R sI sP ix n).L.CopiesKept (slotCount adds)) {w : World} {path : String} (hf : FileOf s' w path)
    {bk : Backend} {x y : Idx (dotCfg ieee32 (bvCodec 4) R sI sP ix n)} (hl : x.load bk w path = .ok (.nil, y))
    {k b : Int} {fuel : Nat} {ctx ctx' : Ctx (dotCfg ieee32 (bvCodec 4) R sI sP ix n)} {ids : List Nat}
    {ds : List ieee32.V} (hb : ((addedIds adds).length : Int) ≤ (if b = -1 then k * y.roots.length else b))
    (hr : y.getNnsByVector fuel w (opposite ieee32 q) k b ctx = .ok (ids, ds, ctx')) :
    Farthest (AsFar ieee32 (lastAdded adds) q (trueDist val32 n (lastAdded adds) q) (2 * sqErr n (2 ^ (-24 : Int)))) (addedIds adds) k.toNat ids := by
  rw [(C129_loaded_dot32 h hix hn hv (opposite32 hq) hroots h2 hcp hf hl hb hr).1]
  exact bruteForce_farthest32 hn hv hq _
end

section
variable {R : Rng} {sI : List Nat → List Nat} {sP : List (ieee64.V × Nat) → List (ieee64.V × Nat)} {ix n numCPU : Nat}
  {pol : BuildPolicy} {adds : List (Nat × List ieee64.V)} {trees workers : Int} {s s' : Idx (dotCfg ieee64 (bvCodec 8) R sI sP ix n)}

/-- **C133 for `float64`**, dot product indexes, vectors of at least `3 * sizeof(TIX)` components and of moderate norm, budgets of at least the number of items: the answer to
the opposite of `q` are the items farthest from `q`, the farthest first. -/
theorem C133_dot64 (h : Session (dotCfg ieee64 (bvCodec 8) R sI sP ix n) numCPU pol adds trees workers s s')
    (hix : 3 * ix ≤ n) (hn : n ≤ 2 ^ 46) (hv : ∀ i v, lastAdded adds i = some v → Moderate64 n v) {q : List ieee64.V} (hq : Moderate64 n q)
    (hroots : s'.roots ≠ []) (w : World) {k b : Int} {fuel : Nat} {ctx ctx' : Ctx (dotCfg ieee64 (bvCodec 8) R sI sP ix n)} {ids : List Nat}
    {ds : List ieee64.V} (hb : ((addedIds adds).length : Int) ≤ (if b = -1 then k * s'.roots.length else b))
    (hr : s'.getNnsByVector fuel w (opposite ieee64 q) k b ctx = .ok (ids, ds, ctx')) :
    Farthest (AsFar ieee64 (lastAdded adds) q (trueDist val64 n (lastAdded adds) q) (2 * sqErr n (2 ^ (-53 : Int)))) (addedIds adds) k.toNat ids := by
  rw [(C129_dot64 h hix hn hv (opposite64 hq) hroots w hb hr).1]
  exact bruteForce_farthest64 hn hv hq _

/-- **C133 for `float64`**, dot product, loaded indexes. -/
theorem C133_loaded_dot64 (h : Session (dotCfg ieee64 (bvCodec 8) R sI sP ix n) numCPU pol adds trees workers s s')
    (hix : 3 * ix ≤ n) (hn : n ≤ 2 ^ 46) (hv : ∀ i v, lastAdded adds i = some v → Moderate64 n v) {q : List ieee64.V} (hq : Moderate64 n q)
    (hroots : s'.roots ≠ []) (h2 : 2 ≤ slotCount adds)
    (hcp : (dotCfg ieee64 (bvCodec 8) R sI sP ix n).L.CopiesKept (slotCount adds)) {w : World} {path : String} (hf : FileOf s' w path)
    {bk : Backend} {x y : Idx (dotCfg ieee64 (bvCodec 8) R sI sP ix n)} (hl : x.load bk w path = .ok (.nil, y))
    {k b : Int} {fuel : Nat} {ctx ctx' : Ctx (dotCfg ieee64 (bvCodec 8) R sI sP ix n)} {ids : List Nat}
    {ds : List ieee64.V} (hb : ((addedIds adds).length : Int) ≤ (if b = -1 then k * y.roots.length else b))
    (hr : y.getNnsByVector fuel w (opposite ieee64 q) k b ctx = .ok (ids, ds, ctx')) :
    Farthest (AsFar ieee64 (lastAdded adds) q (trueDist val64 n (lastAdded adds) q) (2 * sqErr n (2 ^ (-53 : Int)))) (addedIds adds) k.toNat ids := by
  rw [(C129_loaded_dot64 h hix hn hv (opposite64 hq) hroots h2 hcp hf hl hb hr).1]
  exact bruteForce_farthest64 hn hv hq _
end

/-- **C133, the exception is needed**: from `(-1, 0)` these two `float32` vectors are equally far by the formula, from `(1, 0)` the second is farther.  An answer of one item
to `(-1, 0)` has whichever has the smaller index. -/
theorem C133_tie : ∃ q v x : List ieee32.V, ieee32.eq (angularFormula ieee32 (opposite ieee32 q) v) (angularFormula ieee32 (opposite ieee32 q) x) = true ∧
    ieee32.lt (angularFormula ieee32 q v) (angularFormula ieee32 q x) = true :=
  ⟨[x32 0x3F800000, x32 0], [x32 0x3FFB3107, x32 0x3A9D20DA], [x32 0x3FF17CD2, x32 0x3AC97CEA], by decide +kernel, by decide +kernel⟩

/-- Twenty items and a query for C133; the formula orders the first and the last item one way from the query and the other way from its opposite. -/
example : ∃ s s', Session (angular32 4 12) 1 .single (longAdds 20) 3 1 s s' ∧ (∀ i v, lastAdded (longAdds 20) i = some v → Moderate32 12 v) ∧
    Moderate32 12 query12 ∧ s'.roots.length = 3 ∧
    (ieee32.lt (formulaDist ieee32 (lastAdded (longAdds 20)) query12 0) (formulaDist ieee32 (lastAdded (longAdds 20)) query12 19) !=
      ieee32.lt (formulaDist ieee32 (lastAdded (longAdds 20)) (opposite ieee32 query12) 0) (formulaDist ieee32 (lastAdded (longAdds 20)) (opposite ieee32 query12) 19)) = true := by
  obtain ⟨s, s', -, h, h1, -⟩ := C76_build (c := angular32 4 12) (.angular32 (by decide) (by decide)) 1 (longAdds 20) (legalAdds_of (by decide +kernel)) (Kiss32.new 0) 0 3 1
    (by decide +kernel)
  exact ⟨s, s', h, longAdds_moderate, moderate32_of_bits (by decide) (by decide) (by decide +kernel) ⟨0, by decide +kernel⟩, h1 (by decide), by decide +kernel⟩

end Annoy
