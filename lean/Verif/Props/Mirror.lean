import Verif.Props.Decides
import Verif.Props.SelfDistance
import Verif.Proof.IeeeMirror
/-!
# C131, C132: opposite vectors and mirror images
-/
namespace Annoy
open Ieee

/-! ### C132: mirror images -/

/-- Signs cancel in products, bit for bit. -/
def Num.Mirror (N : Num) : Prop := ∀ x y, N.mul (N.neg x) (N.neg y) = N.mul x y

theorem ieee32_mirror : ieee32.Mirror := fun x y => MirrorBV.mul (F := f32) (w := 32) (by decide) x y

theorem ieee64_mirror : ieee64.Mirror := fun x y => MirrorBV.mul (F := f64) (w := 64) (by decide) x y

/-- The opposite vector. -/
def opposite (N : Num) (v : List N.V) : List N.V := v.map N.neg

/-- The items mirrored at the origin. -/
def mirrored (N : Num) (adds : List (Nat × List N.V)) : List (Nat × List N.V) := adds.map fun p => (p.1, opposite N p.2)

section
variable {N : Num}

theorem dotFrom_mirror (hN : N.Mirror) (a b : List N.V) : ∀ s, Vec.dotFrom N s (opposite N a) (opposite N b) = Vec.dotFrom N s a b := by
  induction a generalizing b with
  | nil => intro s; cases b <;> rfl
  | cons x a ih =>
    intro s
    cases b with
    | nil => rfl
    | cons y b =>
      show Vec.dotFrom N (N.add s (N.mul (N.neg x) (N.neg y))) (opposite N a) (opposite N b) = _
      rw [hN, ih]
      rfl

theorem angularFormula_mirror (hN : N.Mirror) (q v : List N.V) : angularFormula N (opposite N q) (opposite N v) = angularFormula N q v := by
  have h : ∀ a b, Vec.dot N (opposite N a) (opposite N b) = Vec.dot N a b := fun a b => dotFrom_mirror hN a b _
  unfold angularFormula
  rw [h, h, h]

theorem lastAdded_mirrored (adds : List (Nat × List N.V)) (i : Nat) : lastAdded (mirrored N adds) i = (lastAdded adds i).map (opposite N) := by
  unfold lastAdded mirrored
  rw [← List.map_reverse, List.find?_map, Option.map_map, Option.map_map]
  rfl

theorem slotCount_mirrored (adds : List (Nat × List N.V)) : slotCount (mirrored N adds) = slotCount adds := by
  unfold slotCount mirrored
  rw [List.foldr_map]

theorem addedIds_mirrored (adds : List (Nat × List N.V)) : addedIds (mirrored N adds) = addedIds adds := by
  unfold addedIds liveOf
  rw [slotCount_mirrored]
  refine List.filter_congr fun i _ => ?_
  rw [lastAdded_mirrored, Option.isSome_map]

theorem formulaDist_mirrored (hN : N.Mirror) (adds : List (Nat × List N.V)) (q : List N.V) (i : Nat) :
    formulaDist N (lastAdded (mirrored N adds)) (opposite N q) i = formulaDist N (lastAdded adds) q i := by
  unfold formulaDist
  rw [lastAdded_mirrored]
  cases lastAdded adds i with
  | none => rfl
  | some v => exact angularFormula_mirror hN q v

theorem bruteForce_mirrored (hN : N.Mirror) (adds : List (Nat × List N.V)) (q : List N.V) (k : Nat) :
    bruteForce N (mirrored N adds) (opposite N q) k = bruteForce N adds q k := by
  unfold bruteForce
  rw [addedIds_mirrored, funext (formulaDist_mirrored hN adds q)]

theorem pt_opposite {val : N.V → ℝ} {n : Nat} (hval : ∀ x, val (N.neg x) = -val x) (v : List N.V) :
    pt n ((opposite N v).map val) = -pt n (v.map val) := by
  have e1 : (Annoy.opposite N v).map val = (v.map val).map (fun x => -x) := by
    unfold Annoy.opposite
    rw [List.map_map, List.map_map]
    exact List.map_congr_left fun x _ => hval x
  rw [e1]
  unfold pt
  ext i
  simp only [List.getD_eq_getElem?_getD, List.getElem?_map, PiLp.neg_apply]
  cases v[i.1]? <;> simp

/-- The opposite of a moderate vector is moderate. -/
theorem Moderate.opposite {val : N.V → ℝ} {Fin : N.V → Prop} {lo hi : ℝ} {n : Nat} {v : List N.V} (hval : ∀ x, val (N.neg x) = -val x)
    (hfin : ∀ x, Fin x → Fin (N.neg x)) (h : Moderate val Fin lo hi n v) : Moderate val Fin lo hi n (opposite N v) := by
  have e := pt_opposite (n := n) hval v
  refine ⟨by rw [← h.length]; simp [Annoy.opposite], fun x hx => ?_, ?_, ?_⟩
  · obtain ⟨y, hy, rfl⟩ := List.mem_map.1 hx
    exact hfin y (h.finite y hy)
  · rw [e, norm_neg]; exact h.lower
  · rw [e, norm_neg]; exact h.upper
end

theorem opposite32 {n : Nat} {v : List ieee32.V} (h : Moderate32 n v) : Moderate32 n (opposite ieee32 v) :=
  Moderate.opposite (fun x => MirrorBV.real (F := f32) (w := 32) (by decide) x) (fun x hx => MirrorBV.finite (F := f32) (w := 32) (by decide) x hx) h

theorem opposite64 {n : Nat} {v : List ieee64.V} (h : Moderate64 n v) : Moderate64 n (opposite ieee64 v) :=
  Moderate.opposite (fun x => MirrorBV.real (F := f64) (w := 64) (by decide) x) (fun x hx => MirrorBV.finite (F := f64) (w := 64) (by decide) x hx) h

theorem mirrored_all {N : Num} {adds : List (Nat × List N.V)} {P : List N.V → Prop} (hP : ∀ v, P v → P (opposite N v))
    (h : ∀ i v, lastAdded adds i = some v → P v) (i : Nat) (v : List N.V) (hv : lastAdded (mirrored N adds) i = some v) : P v := by
  rw [lastAdded_mirrored] at hv
  obtain ⟨x, hx, rfl⟩ := Option.map_eq_some_iff.1 hv
  exact hP x (h i x hx)

/-- **C132, distances**: an angular index over the mirrored items reports the same distances, bit for bit, whatever the vectors are. -/
theorem C132_distance {N : Num} {C C' : Codec N.V} {R R' : Rng} {sI sI' : List Nat → List Nat} {sP sP' : List (N.V × Nat) → List (N.V × Nat)}
    {ix ix' n numCPU numCPU' : Nat} {pol pol' : BuildPolicy} {adds : List (Nat × List N.V)} {trees trees' workers workers' : Int}
    {s s' : Idx (angularCfg N C R sI sP ix n)} {t t' : Idx (angularCfg N C' R' sI' sP' ix' n)} (hM : N.MulLaws) (hN : N.Mirror)
    (h : Session (angularCfg N C R sI sP ix n) numCPU pol adds trees workers s s')
    (g : Session (angularCfg N C' R' sI' sP' ix' n) numCPU' pol' (mirrored N adds) trees' workers' t t') (w w' : World) {i j : Nat}
    (hi : (lastAdded adds i).isSome) (hj : (lastAdded adds j).isSome) : t'.getDistance w' i j = s'.getDistance w i j := by
  obtain ⟨v, hv⟩ := Option.isSome_iff_exists.1 hi
  obtain ⟨u, hu⟩ := Option.isSome_iff_exists.1 hj
  have e : ∀ i v, lastAdded adds i = some v → lastAdded (mirrored N adds) i = some (opposite N v) := fun i v h => by rw [lastAdded_mirrored, h]; rfl
  rw [C66_angular_value hM h w hv hu, C66_angular_value hM g w' (e i v hv) (e j u hu), angularFormula_mirror hN]
  rfl

/-- **C132 for `float32`**, vectors of at least `3 * sizeof(TIX)` components and of moderate norm, budgets of at least the number of items: the mirrored query
has in an index over the mirrored items the same answer, distances included, bit for bit. -/
theorem C132_float32 {R R' : Rng} {sI sI' : List Nat → List Nat} {sP sP' : List (ieee32.V × Nat) → List (ieee32.V × Nat)} {ix ix' n numCPU numCPU' : Nat}
    {pol pol' : BuildPolicy} {adds : List (Nat × List ieee32.V)} {trees trees' workers workers' : Int}
    {s s' : Idx (angularCfg ieee32 (bvCodec 4) R sI sP ix n)} {t t' : Idx (angularCfg ieee32 (bvCodec 4) R' sI' sP' ix' n)}
    (h : Session (angularCfg ieee32 (bvCodec 4) R sI sP ix n) numCPU pol adds trees workers s s')
    (g : Session (angularCfg ieee32 (bvCodec 4) R' sI' sP' ix' n) numCPU' pol' (mirrored ieee32 adds) trees' workers' t t')
    (hix : 3 * ix ≤ n) (hix' : 3 * ix' ≤ n) (hn : n ≤ 2 ^ 17) (hv : ∀ i v, lastAdded adds i = some v → Moderate32 n v) {q : List ieee32.V}
    (hq : Moderate32 n q) (hroots : s'.roots ≠ []) (hroots' : t'.roots ≠ []) (w w' : World) {k b b' : Int} {fuel fuel' : Nat}
    {ctx o : Ctx (angularCfg ieee32 (bvCodec 4) R sI sP ix n)} {ctx' o' : Ctx (angularCfg ieee32 (bvCodec 4) R' sI' sP' ix' n)} {ids ids' : List Nat}
    {ds ds' : List ieee32.V} (hb : ((addedIds adds).length : Int) ≤ (if b = -1 then k * s'.roots.length else b))
    (hb' : ((addedIds adds).length : Int) ≤ (if b' = -1 then k * t'.roots.length else b'))
    (hr : s'.getNnsByVector fuel w q k b ctx = .ok (ids, ds, o))
    (hr' : t'.getNnsByVector fuel' w' (opposite ieee32 q) k b' ctx' = .ok (ids', ds', o')) : ids' = ids ∧ ds' = ds := by
  obtain ⟨e1, e2⟩ := C129_float32 h hix hn hv hq hroots w hb hr
  obtain ⟨f1, f2⟩ := C129_float32 g hix' hn (mirrored_all (fun _ => opposite32) hv) (opposite32 hq) hroots' w' (by rw [addedIds_mirrored]; exact hb') hr'
  rw [bruteForce_mirrored ieee32_mirror] at f1 f2
  refine ⟨f1.trans e1.symm, f2.trans (Eq.trans ?_ e2.symm)⟩
  exact List.map_congr_left fun i _ => by rw [formulaDist_mirrored ieee32_mirror]

/-- **C132 for `float64`**, vectors of at least `3 * sizeof(TIX)` components and of moderate norm, budgets of at least the number of items: the mirrored query
has in an index over the mirrored items the same answer, distances included, bit for bit. -/
theorem C132_float64 {R R' : Rng} {sI sI' : List Nat → List Nat} {sP sP' : List (ieee64.V × Nat) → List (ieee64.V × Nat)} {ix ix' n numCPU numCPU' : Nat}
    {pol pol' : BuildPolicy} {adds : List (Nat × List ieee64.V)} {trees trees' workers workers' : Int}
    {s s' : Idx (angularCfg ieee64 (bvCodec 8) R sI sP ix n)} {t t' : Idx (angularCfg ieee64 (bvCodec 8) R' sI' sP' ix' n)}
    (h : Session (angularCfg ieee64 (bvCodec 8) R sI sP ix n) numCPU pol adds trees workers s s')
    (g : Session (angularCfg ieee64 (bvCodec 8) R' sI' sP' ix' n) numCPU' pol' (mirrored ieee64 adds) trees' workers' t t')
    (hix : 3 * ix ≤ n) (hix' : 3 * ix' ≤ n) (hn : n ≤ 2 ^ 46) (hv : ∀ i v, lastAdded adds i = some v → Moderate64 n v) {q : List ieee64.V}
    (hq : Moderate64 n q) (hroots : s'.roots ≠ []) (hroots' : t'.roots ≠ []) (w w' : World) {k b b' : Int} {fuel fuel' : Nat}
    {ctx o : Ctx (angularCfg ieee64 (bvCodec 8) R sI sP ix n)} {ctx' o' : Ctx (angularCfg ieee64 (bvCodec 8) R' sI' sP' ix' n)} {ids ids' : List Nat}
    {ds ds' : List ieee64.V} (hb : ((addedIds adds).length : Int) ≤ (if b = -1 then k * s'.roots.length else b))
    (hb' : ((addedIds adds).length : Int) ≤ (if b' = -1 then k * t'.roots.length else b'))
    (hr : s'.getNnsByVector fuel w q k b ctx = .ok (ids, ds, o))
    (hr' : t'.getNnsByVector fuel' w' (opposite ieee64 q) k b' ctx' = .ok (ids', ds', o')) : ids' = ids ∧ ds' = ds := by
  obtain ⟨e1, e2⟩ := C129_float64 h hix hn hv hq hroots w hb hr
  obtain ⟨f1, f2⟩ := C129_float64 g hix' hn (mirrored_all (fun _ => opposite64) hv) (opposite64 hq) hroots' w' (by rw [addedIds_mirrored]; exact hb') hr'
  rw [bruteForce_mirrored ieee64_mirror] at f1 f2
  refine ⟨f1.trans e1.symm, f2.trans (Eq.trans ?_ e2.symm)⟩
  exact List.map_congr_left fun i _ => by rw [formulaDist_mirrored ieee64_mirror]

/-- **C132 for `float32`, dot product**, vectors of at least `3 * sizeof(TIX)` components and of moderate norm, budgets of at least the number of items: the mirrored query
has in an index over the mirrored items the same answer, distances included, bit for bit. -/
theorem C132_dot32 {R R' : Rng} {sI sI' : List Nat → List Nat} {sP sP' : List (ieee32.V × Nat) → List (ieee32.V × Nat)} {ix ix' n numCPU numCPU' : Nat}
    {pol pol' : BuildPolicy} {adds : List (Nat × List ieee32.V)} {trees trees' workers workers' : Int}
    {s s' : Idx (dotCfg ieee32 (bvCodec 4) R sI sP ix n)} {t t' : Idx (dotCfg ieee32 (bvCodec 4) R' sI' sP' ix' n)}
    (h : Session (dotCfg ieee32 (bvCodec 4) R sI sP ix n) numCPU pol adds trees workers s s')
    (g : Session (dotCfg ieee32 (bvCodec 4) R' sI' sP' ix' n) numCPU' pol' (mirrored ieee32 adds) trees' workers' t t')
    (hix : 3 * ix ≤ n) (hix' : 3 * ix' ≤ n) (hn : n ≤ 2 ^ 17) (hv : ∀ i v, lastAdded adds i = some v → Moderate32 n v) {q : List ieee32.V}
    (hq : Moderate32 n q) (hroots : s'.roots ≠ []) (hroots' : t'.roots ≠ []) (w w' : World) {k b b' : Int} {fuel fuel' : Nat}
    {ctx o : Ctx (dotCfg ieee32 (bvCodec 4) R sI sP ix n)} {ctx' o' : Ctx (dotCfg ieee32 (bvCodec 4) R' sI' sP' ix' n)} {ids ids' : List Nat}
    {ds ds' : List ieee32.V} (hb : ((addedIds adds).length : Int) ≤ (if b = -1 then k * s'.roots.length else b))
    (hb' : ((addedIds adds).length : Int) ≤ (if b' = -1 then k * t'.roots.length else b'))
    (hr : s'.getNnsByVector fuel w q k b ctx = .ok (ids, ds, o))
    (hr' : t'.getNnsByVector fuel' w' (opposite ieee32 q) k b' ctx' = .ok (ids', ds', o')) : ids' = ids ∧ ds' = ds := by
  obtain ⟨e1, e2⟩ := C129_dot32 h hix hn hv hq hroots w hb hr
  obtain ⟨f1, f2⟩ := C129_dot32 g hix' hn (mirrored_all (fun _ => opposite32) hv) (opposite32 hq) hroots' w' (by rw [addedIds_mirrored]; exact hb') hr'
  rw [bruteForce_mirrored ieee32_mirror] at f1 f2
  refine ⟨f1.trans e1.symm, f2.trans (Eq.trans ?_ e2.symm)⟩
  exact List.map_congr_left fun i _ => by rw [formulaDist_mirrored ieee32_mirror]

/-- **C132 for `float64`, dot product**, vectors of at least `3 * sizeof(TIX)` components and of moderate norm, budgets of at least the number of items: the mirrored query
has in an index over the mirrored items the same answer, distances included, bit for bit. -/
theorem C132_dot64 {R R' : Rng} {sI sI' : List Nat → List Nat} {sP sP' : List (ieee64.V × Nat) → List (ieee64.V × Nat)} {ix ix' n numCPU numCPU' : Nat}
    {pol pol' : BuildPolicy} {adds : List (Nat × List ieee64.V)} {trees trees' workers workers' : Int}
    {s s' : Idx (dotCfg ieee64 (bvCodec 8) R sI sP ix n)} {t t' : Idx (dotCfg ieee64 (bvCodec 8) R' sI' sP' ix' n)}
    (h : Session (dotCfg ieee64 (bvCodec 8) R sI sP ix n) numCPU pol adds trees workers s s')
    (g : Session (dotCfg ieee64 (bvCodec 8) R' sI' sP' ix' n) numCPU' pol' (mirrored ieee64 adds) trees' workers' t t')
    (hix : 3 * ix ≤ n) (hix' : 3 * ix' ≤ n) (hn : n ≤ 2 ^ 46) (hv : ∀ i v, lastAdded adds i = some v → Moderate64 n v) {q : List ieee64.V}
    (hq : Moderate64 n q) (hroots : s'.roots ≠ []) (hroots' : t'.roots ≠ []) (w w' : World) {k b b' : Int} {fuel fuel' : Nat}
    {ctx o : Ctx (dotCfg ieee64 (bvCodec 8) R sI sP ix n)} {ctx' o' : Ctx (dotCfg ieee64 (bvCodec 8) R' sI' sP' ix' n)} {ids ids' : List Nat}
    {ds ds' : List ieee64.V} (hb : ((addedIds adds).length : Int) ≤ (if b = -1 then k * s'.roots.length else b))
    (hb' : ((addedIds adds).length : Int) ≤ (if b' = -1 then k * t'.roots.length else b'))
    (hr : s'.getNnsByVector fuel w q k b ctx = .ok (ids, ds, o))
    (hr' : t'.getNnsByVector fuel' w' (opposite ieee64 q) k b' ctx' = .ok (ids', ds', o')) : ids' = ids ∧ ds' = ds := by
  obtain ⟨e1, e2⟩ := C129_dot64 h hix hn hv hq hroots w hb hr
  obtain ⟨f1, f2⟩ := C129_dot64 g hix' hn (mirrored_all (fun _ => opposite64) hv) (opposite64 hq) hroots' w' (by rw [addedIds_mirrored]; exact hb') hr'
  rw [bruteForce_mirrored ieee64_mirror] at f1 f2
  refine ⟨f1.trans e1.symm, f2.trans (Eq.trans ?_ e2.symm)⟩
  exact List.map_congr_left fun i _ => by rw [formulaDist_mirrored ieee64_mirror]

/-! ### C131: opposite vectors -/

theorem above_two {d c e f : ℝ} (hc2 : c ≤ 2) (hf : 0 ≤ f) (h1 : |d - c| ≤ e) (h2 : c * |d - c| ≤ f) (he : e ≤ 1) : d ≤ 2 + f := by
  have h3 := le_abs_self (d - c)
  rcases le_total c 1 with hc | hc
  · linarith
  · have : |d - c| ≤ c * |d - c| := le_mul_of_one_le_left (abs_nonneg _) hc
    linarith

theorem dot_opposite32 (v : List ieee32.V) : ∀ s s' : ieee32.V, f32.Alike (BitVec.toNat (w := 32) s') (f32.neg (BitVec.toNat (w := 32) s)) →
    f32.Alike (BitVec.toNat (w := 32) (Vec.dotFrom ieee32 s' v (opposite ieee32 v))) (f32.neg (BitVec.toNat (w := 32) (Vec.dotFrom ieee32 s v v))) := by
  induction v with
  | nil => intro s s' h; exact h
  | cons x v ih => intro s s' h; exact ih _ _ (MirrorBV.step f32_ok (w := 32) (by decide) h)

/-- The formula for a vector and its opposite. -/
theorem formula_opposite32 {v : List ieee32.V} (h1 : (2 : ℝ) ^ (-63 : Int) ≤ f32.real (BitVec.toNat (w := 32) (Vec.dot ieee32 v v)))
    (h2 : f32.real (BitVec.toNat (w := 32) (Vec.dot ieee32 v v)) < 2 ^ (64 : Int)) : angularFormula ieee32 v (opposite ieee32 v) = x32 0x40800000 := by
  obtain ⟨hpos, hroot, hdiv⟩ := formula_parts32 h1 h2
  have ha : f32.Alike (BitVec.toNat (w := 32) (Vec.dot ieee32 v (opposite ieee32 v))) (f32.neg (BitVec.toNat (w := 32) (Vec.dot ieee32 v v))) :=
    dot_opposite32 v _ _ (Or.inr (Or.inl ⟨by decide, by decide⟩))
  have hqq : Vec.dot ieee32 (opposite ieee32 v) (opposite ieee32 v) = Vec.dot ieee32 v v := dotFrom_mirror ieee32_mirror v v _
  have hp0 : 0 < f32.real (BitVec.toNat (w := 32) (Vec.dot ieee32 v v)) := lt_of_lt_of_le (by positivity) h1
  unfold angularFormula
  rw [hqq]
  generalize Vec.dot ieee32 v (opposite ieee32 v) = p' at *
  generalize Vec.dot ieee32 v v = p at *
  obtain ⟨hb1, hb2⟩ := range32 (BitVec.isLt (w := 32) p) h1 h2
  have hx : BitVec.toNat (w := 32) p < f32.infBits := Nat.lt_of_le_of_lt (Nat.le_add_right _ _) hb2
  have hmag : f32.mag (BitVec.toNat (w := 32) p) = BitVec.toNat (w := 32) p := (Fmt.bits_pos (BitVec.isLt (w := 32) p) hp0).2
  have hne : BitVec.toNat (w := 32) p ≠ 0 := fun h => by
    rw [h, Fmt.real_of_nonneg (by decide), show f32.mag 0 = 0 by decide, Fmt.value_zero] at hp0
    exact lt_irrefl _ hp0
  have hp : BitVec.toNat (w := 32) p' = f32.neg (BitVec.toNat (w := 32) p) := by
    refine ha.eq_of ?_ ?_
    · unfold Fmt.isNaN
      rw [f32.mag_neg', hmag]
      exact decide_eq_false (by omega)
    · rw [f32.mag_neg', hmag]
      exact hne
  have hq : ieee32.div (ieee32.mul ieee32.two p') p = ieee32.neg ieee32.two :=
    MirrorBV.quotient f32_ok (w := 32) (c := BitVec.ofNat 32 f32.two) (by decide) hp hdiv (by decide) (by decide) (f32.div_lt f32_ok _ _)
  rw [if_pos hpos, hroot, hq]
  decide +kernel

theorem dot_opposite64 (v : List ieee64.V) : ∀ s s' : ieee64.V, f64.Alike (BitVec.toNat (w := 64) s') (f64.neg (BitVec.toNat (w := 64) s)) →
    f64.Alike (BitVec.toNat (w := 64) (Vec.dotFrom ieee64 s' v (opposite ieee64 v))) (f64.neg (BitVec.toNat (w := 64) (Vec.dotFrom ieee64 s v v))) := by
  induction v with
  | nil => intro s s' h; exact h
  | cons x v ih => intro s s' h; exact ih _ _ (MirrorBV.step f64_ok (w := 64) (by decide) h)

/-- The formula for a vector and its opposite. -/
theorem formula_opposite64 {v : List ieee64.V} (h1 : (2 : ℝ) ^ (-511 : Int) ≤ f64.real (BitVec.toNat (w := 64) (Vec.dot ieee64 v v)))
    (h2 : f64.real (BitVec.toNat (w := 64) (Vec.dot ieee64 v v)) < 2 ^ (512 : Int)) : angularFormula ieee64 v (opposite ieee64 v) = x64 0x4010000000000000 := by
  obtain ⟨hpos, hroot, hdiv⟩ := formula_parts64 h1 h2
  have ha : f64.Alike (BitVec.toNat (w := 64) (Vec.dot ieee64 v (opposite ieee64 v))) (f64.neg (BitVec.toNat (w := 64) (Vec.dot ieee64 v v))) :=
    dot_opposite64 v _ _ (Or.inr (Or.inl ⟨by decide, by decide⟩))
  have hqq : Vec.dot ieee64 (opposite ieee64 v) (opposite ieee64 v) = Vec.dot ieee64 v v := dotFrom_mirror ieee64_mirror v v _
  have hp0 : 0 < f64.real (BitVec.toNat (w := 64) (Vec.dot ieee64 v v)) := lt_of_lt_of_le (by positivity) h1
  unfold angularFormula
  rw [hqq]
  generalize Vec.dot ieee64 v (opposite ieee64 v) = p' at *
  generalize Vec.dot ieee64 v v = p at *
  obtain ⟨hb1, hb2⟩ := range64 (BitVec.isLt (w := 64) p) h1 h2
  have hx : BitVec.toNat (w := 64) p < f64.infBits := Nat.lt_of_le_of_lt (Nat.le_add_right _ _) hb2
  have hmag : f64.mag (BitVec.toNat (w := 64) p) = BitVec.toNat (w := 64) p := (Fmt.bits_pos (BitVec.isLt (w := 64) p) hp0).2
  have hne : BitVec.toNat (w := 64) p ≠ 0 := fun h => by
    rw [h, Fmt.real_of_nonneg (by decide), show f64.mag 0 = 0 by decide, Fmt.value_zero] at hp0
    exact lt_irrefl _ hp0
  have hp : BitVec.toNat (w := 64) p' = f64.neg (BitVec.toNat (w := 64) p) := by
    refine ha.eq_of ?_ ?_
    · unfold Fmt.isNaN
      rw [f64.mag_neg', hmag]
      exact decide_eq_false (by omega)
    · rw [f64.mag_neg', hmag]
      exact hne
  have hq : ieee64.div (ieee64.mul ieee64.two p') p = ieee64.neg ieee64.two :=
    MirrorBV.quotient f64_ok (w := 64) (c := BitVec.ofNat 64 f64.two) (by decide) hp hdiv (by decide) (by decide) (f64.div_lt f64_ok _ _)
  rw [if_pos hpos, hroot, hq]
  decide +kernel

section
variable {C : Codec ieee32.V} {R : Rng} {sI : List Nat → List Nat} {sP : List (ieee32.V × Nat) → List (ieee32.V × Nat)} {ix n numCPU : Nat}
  {pol : BuildPolicy} {adds : List (Nat × List ieee32.V)} {trees workers : Int} {s s' : Idx (angularCfg ieee32 C R sI sP ix n)}

/-- **C131 for `float32`**, opposite vectors: on a built angular index `GetDistance` of two items with opposite vectors is exactly 2 if the computed squared norm is
in `[2^-63, 2^64)`, whatever the rounding errors in that norm. -/
theorem C131_opposite_float32_partial (h : Session (angularCfg ieee32 C R sI sP ix n) numCPU pol adds trees workers s s') (w : World) {i j : Nat} {v : List ieee32.V}
    (hi : lastAdded adds i = some v) (hj : lastAdded adds j = some (opposite ieee32 v))
    (h1 : (2 : ℝ) ^ (-63 : Int) ≤ f32.real (BitVec.toNat (w := 32) (Vec.dot ieee32 v v)))
    (h2 : f32.real (BitVec.toNat (w := 32) (Vec.dot ieee32 v v)) < 2 ^ (64 : Int)) : s'.getDistance w i j = .ok (x32 0x40000000) := by
  rw [C66_angular_value ieee32_mulLaws h w hi hj, formula_opposite32 h1 h2]
  exact congrArg Except.ok (show ieee32.sqrt (x32 0x40800000) = x32 0x40000000 by decide +kernel)

/-- **C131 for `float32`**, what holds of the bound: no distance of items with moderate norms is above `2 + 5(n+12)·2^-24`.  Missing for the full claim: the bound 2, which is
false, `C131_above_two_refuted`. -/
theorem C131_bound_float32_partial (h : Session (angularCfg ieee32 C R sI sP ix n) numCPU pol adds trees workers s s') (w : World) (hn : n ≤ 2 ^ 17)
    {i j : Nat} {v x : List ieee32.V} (ei : lastAdded adds i = some v) (ej : lastAdded adds j = some x) (hv : Moderate32 n v) (hx : Moderate32 n x) :
    ∃ d, s'.getDistance w i j = .ok d ∧ (ieee32.Ordinary d → val32 d ≤ 2 + 5 * (n + 12) * 2 ^ (-24 : Int)) := by
  obtain ⟨d, h1, -, h2⟩ := C83_float32 h w hn ei ej hv hx
  refine ⟨d, h1, fun ho => ?_⟩
  obtain ⟨-, h3, h4⟩ := h2 ho
  refine above_two (chord_le _ _ _) (by positivity) h3 h4 ?_
  have e1 : (n : ℝ) ≤ 2 ^ 17 := by exact_mod_cast hn
  have e2 : sqErr n (2 ^ (-24 : Int)) ≤ (1 / 2) ^ 2 := by
    have : (n : ℝ) * 2 ^ (-24 : Int) ≤ 2 ^ 17 * 2 ^ (-24 : Int) := mul_le_mul_of_nonneg_right e1 (by positivity)
    unfold sqErr
    norm_num at this ⊢
    linarith
  have e3 : √(sqErr n (2 ^ (-24 : Int))) ≤ 1 / 2 := Real.sqrt_le_iff.2 ⟨by norm_num, e2⟩
  norm_num at e3 ⊢
  linarith
end

section
variable {C : Codec ieee64.V} {R : Rng} {sI : List Nat → List Nat} {sP : List (ieee64.V × Nat) → List (ieee64.V × Nat)} {ix n numCPU : Nat}
  {pol : BuildPolicy} {adds : List (Nat × List ieee64.V)} {trees workers : Int} {s s' : Idx (angularCfg ieee64 C R sI sP ix n)}

/-- **C131 for `float64`**, opposite vectors: on a built angular index `GetDistance` of two items with opposite vectors is exactly 2 if the computed squared norm is
in `[2^-511, 2^512)`, whatever the rounding errors in that norm. -/
theorem C131_opposite_float64_partial (h : Session (angularCfg ieee64 C R sI sP ix n) numCPU pol adds trees workers s s') (w : World) {i j : Nat} {v : List ieee64.V}
    (hi : lastAdded adds i = some v) (hj : lastAdded adds j = some (opposite ieee64 v))
    (h1 : (2 : ℝ) ^ (-511 : Int) ≤ f64.real (BitVec.toNat (w := 64) (Vec.dot ieee64 v v)))
    (h2 : f64.real (BitVec.toNat (w := 64) (Vec.dot ieee64 v v)) < 2 ^ (512 : Int)) : s'.getDistance w i j = .ok (x64 0x4000000000000000) := by
  rw [C66_angular_value ieee64_mulLaws h w hi hj, formula_opposite64 h1 h2]
  exact congrArg Except.ok (show ieee64.sqrt (x64 0x4010000000000000) = x64 0x4000000000000000 by decide +kernel)

/-- **C131 for `float64`**, what holds of the bound: no distance of items with moderate norms is above `2 + 5(n+12)·2^-53`.  Missing for the full claim: the bound 2, which is
false, `C131_above_two_refuted`. -/
theorem C131_bound_float64_partial (h : Session (angularCfg ieee64 C R sI sP ix n) numCPU pol adds trees workers s s') (w : World) (hn : n ≤ 2 ^ 46)
    {i j : Nat} {v x : List ieee64.V} (ei : lastAdded adds i = some v) (ej : lastAdded adds j = some x) (hv : Moderate64 n v) (hx : Moderate64 n x) :
    ∃ d, s'.getDistance w i j = .ok d ∧ (ieee64.Ordinary d → val64 d ≤ 2 + 5 * (n + 12) * 2 ^ (-53 : Int)) := by
  obtain ⟨d, h1, -, h2⟩ := C83_float64 h w hn ei ej hv hx
  refine ⟨d, h1, fun ho => ?_⟩
  obtain ⟨-, h3, h4⟩ := h2 ho
  refine above_two (chord_le _ _ _) (by positivity) h3 h4 ?_
  have e1 : (n : ℝ) ≤ 2 ^ 46 := by exact_mod_cast hn
  have e2 : sqErr n (2 ^ (-53 : Int)) ≤ (1 / 2) ^ 2 := by
    have : (n : ℝ) * 2 ^ (-53 : Int) ≤ 2 ^ 46 * 2 ^ (-53 : Int) := mul_le_mul_of_nonneg_right e1 (by positivity)
    unfold sqErr
    norm_num at this ⊢
    linarith
  have e3 : √(sqErr n (2 ^ (-53 : Int))) ≤ 1 / 2 := Real.sqrt_le_iff.2 ⟨by norm_num, e2⟩
  norm_num at e3 ⊢
  linarith
end

/-- A vector of six components: 1 and five of about `2^-12`, the squares of which are lost one after another when added to 1. -/
def nearlyUnit : List ieee32.V := x32 0x3F800000 :: List.replicate 5 (x32 0x397FFFFF)
/-- A vector of nearly the opposite direction, of length 3/2. -/
def nearlyOpposite : List ieee32.V := x32 0xBFC00000 :: List.replicate 5 (x32 0xB9B00000)

/-- **C131 is false as a bound**: between these two items any built `float32` angular index reports `2 + 2^-22`, more than 2. -/
theorem C131_above_two_refuted {C : Codec ieee32.V} {R : Rng} {sI : List Nat → List Nat} {sP : List (ieee32.V × Nat) → List (ieee32.V × Nat)} {ix n numCPU : Nat}
    {pol : BuildPolicy} {adds : List (Nat × List ieee32.V)} {trees workers : Int} {s s' : Idx (angularCfg ieee32 C R sI sP ix n)}
    (h : Session (angularCfg ieee32 C R sI sP ix n) numCPU pol adds trees workers s s') (w : World) {i j : Nat}
    (hi : lastAdded adds i = some nearlyUnit) (hj : lastAdded adds j = some nearlyOpposite) :
    ∃ d : ieee32.V, s'.getDistance w i j = .ok d ∧ ieee32.Ordinary d ∧ ieee32.lt (x32 0x40000000) d = true := by
  refine ⟨_, C66_angular_value ieee32_mulLaws h w hi hj, ?_, ?_⟩
  · decide +kernel
  · decide +kernel

/-- Items for these: two opposite vectors with inexact squared norms, and the two above. -/
def oppositeAdds : List (Nat × List ieee32.V) :=
  [(0, [x32 0x3E99999A, x32 0x3F666666, x32 0, x32 0, x32 0, x32 0]), (1, opposite ieee32 [x32 0x3E99999A, x32 0x3F666666, x32 0, x32 0, x32 0, x32 0]),
    (2, nearlyUnit), (3, nearlyOpposite)]

example : ∃ s s', Session (alt32 6) 1 .single oppositeAdds 1 1 s s' ∧ (∀ w, s'.getDistance w 0 1 = .ok (x32 0x40000000)) ∧
    (∀ w, ∃ d : ieee32.V, s'.getDistance w 2 3 = .ok d ∧ ieee32.Ordinary d ∧ ieee32.lt (x32 0x40000000) d = true) ∧
    lastAdded oppositeAdds 2 = some nearlyUnit ∧ lastAdded oppositeAdds 3 = some nearlyOpposite ∧ Moderate32 6 nearlyUnit ∧ Moderate32 6 nearlyOpposite := by
  obtain ⟨s, s', _, h, h1, _⟩ := C10_single (c := alt32 6) (alt32_wf (by decide))
    (Conc.angular_total altRng_inRange (by decide)) (alt32_balanced 6) 1 oppositeAdds
    (legalAdds_of (by decide +kernel)) false 0 1 1 (by decide +kernel)
  have hd : BitVec.toNat (w := 32) (Vec.dot ieee32 [x32 0x3E99999A, x32 0x3F666666, x32 0, x32 0, x32 0, x32 0] [x32 0x3E99999A, x32 0x3F666666, x32 0, x32 0, x32 0, x32 0]) =
    0x3F666666 := by decide +kernel
  obtain ⟨l, u⟩ := range32_of_bits (x := 0x3F666666) (by decide) (by decide)
  rw [← hd] at l u
  exact ⟨s, s', h, fun w => C131_opposite_float32_partial h w (by decide +kernel) (by decide +kernel) l u,
    fun w => C131_above_two_refuted h w (by decide +kernel) (by decide +kernel), by decide +kernel, by decide +kernel,
    moderate32_of_bits (by decide) (by decide) (by decide +kernel) ⟨0, by decide +kernel⟩,
    moderate32_of_bits (by decide) (by decide) (by decide +kernel) ⟨0, by decide +kernel⟩⟩

/-- Indexes of twenty items and of their mirror images, for C132. -/
example : ∃ s s' t t', Session (angular32 4 12) 1 .single (longAdds 20) 3 1 s s' ∧ Session (angular32 4 12) 1 .single (mirrored ieee32 (longAdds 20)) 2 1 t t' ∧
    (∀ i v, lastAdded (longAdds 20) i = some v → Moderate32 12 v) ∧ Moderate32 12 query12 ∧ s'.roots.length = 3 ∧ t'.roots.length = 2 := by
  obtain ⟨s, s', -, h, h1, -⟩ := C76_build (c := angular32 4 12) (.angular32 (by decide) (by decide)) 1 (longAdds 20) (legalAdds_of (by decide +kernel)) (Kiss32.new 0) 0 3 1
    (by decide +kernel)
  obtain ⟨t, t', -, g, g1, -⟩ := C76_build (c := angular32 4 12) (.angular32 (by decide) (by decide)) 1 (mirrored ieee32 (longAdds 20)) (legalAdds_of (by decide +kernel))
    (Kiss32.new 7) 0 2 1 (by decide +kernel)
  exact ⟨s, s', t, t', h, g, longAdds_moderate,
    moderate32_of_bits (by decide) (by decide) (by decide +kernel) ⟨0, by decide +kernel⟩, h1 (by decide), g1 (by decide)⟩

end Annoy
