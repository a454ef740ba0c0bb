import Verif.Proof.IeeeScale
import Verif.Props.SelfDistance
import Verif.Props.Accuracy
import Verif.Props.Mirror
/-!
# C135: doubling a vector changes no angular distance, not even in the last bit
-/
namespace Annoy
open Ieee

/-- The product of two numbers does not underflow: it is zero or at least the least normal number `m`. -/
def NoUnderflow {N : Num} (val : N.V → ℝ) (m : ℝ) (a b : N.V) : Prop := val a * val b = 0 ∨ m ≤ |val a * val b|

/-- The vector times two, as Go computes it. -/
def doubled (N : Num) (v : List N.V) : List N.V := v.map (N.mul N.two)

theorem mem_zip_self {α : Type} : ∀ (l : List α) {p : α × α}, p ∈ l.zip l → p.1 ∈ l ∧ p.2 = p.1
  | a :: l, p, h => by
    rw [List.zip_cons_cons, List.mem_cons] at h
    rcases h with rfl | h
    · exact ⟨List.mem_cons_self, rfl⟩
    · exact ⟨List.mem_cons_of_mem _ (mem_zip_self l h).1, (mem_zip_self l h).2⟩

section
variable {N : Num} {val : N.V → ℝ} {Fin : N.V → Prop} {u t m M lo hi : ℝ} {n : Nat}

theorem Shifts.finDot (S : Shifts N val Fin m M) : ∀ (as bs : List N.V) (s : N.V), Fin (Vec.dotFrom N s as bs) → Fin s
  | _ :: as, _ :: bs, _, h => (S.finAdd (S.finDot as bs _ h)).1
  | [], _, _, h => h
  | _ :: _, [], _, h => h

theorem Shifts.dotFrom (S : Shifts N val Fin m M) (j : Nat) (f g : N.V → N.V) : ∀ (as bs : List N.V) (s s' : N.V),
    (∀ p ∈ as.zip bs, Fin p.1 ∧ Fin p.2 ∧ Fin (f p.1) ∧ Fin (g p.2) ∧ val (f p.1) * val (g p.2) = 2 ^ j * (val p.1 * val p.2) ∧ NoUnderflow val m p.1 p.2) →
    val s' = 2 ^ j * val s → Fin (Vec.dotFrom N s as bs) → Fin (Vec.dotFrom N s' (as.map f) (bs.map g)) →
    val (Vec.dotFrom N s' (as.map f) (bs.map g)) = 2 ^ j * val (Vec.dotFrom N s as bs)
  | a :: as, b :: bs, s, s', h, e, h1, h2 => by
    obtain ⟨fa, fb, fa', fb', ep, hp⟩ := h (a, b) (by simp)
    have g1 := S.finDot as bs _ h1
    have g2 := S.finDot (as.map f) (bs.map g) _ h2
    obtain ⟨k1, k2⟩ := S.finAdd g1
    obtain ⟨k3, k4⟩ := S.finAdd g2
    refine S.dotFrom j f g as bs _ _ (fun p hp => h p (by simp [hp])) ?_ h1 h2
    exact S.add j k1 k2 k3 k4 g1 g2 e (S.mul j fa fb fa' fb' k2 k4 ep hp)
  | [], _, _, _, _, e, _, _ => by simpa [Vec.dotFrom] using e
  | _ :: _, [], _, _, _, e, _, _ => by simpa [Vec.dotFrom] using e

/-- **The computed angular distance does not change when one vector is doubled.** -/
theorem Shifts.formula (S : Shifts N val Fin m M) (H : Approx N val Fin u t M) (K : Scale u t M (lo ^ 2) (hi ^ 2)) (hlo : 0 < lo) (hn : 128 * (n * u) ≤ 1)
    (hm : 2 * m ≤ (lo ^ 2) ^ 2) {v x : List N.V} (hv : Moderate val Fin lo hi n v) (hv' : Moderate val Fin lo hi n (v.map (N.mul N.two))) (hx : Moderate val Fin lo hi n x)
    (hvv : ∀ a ∈ v, NoUnderflow val m a a) (hvx : ∀ p ∈ v.zip x, NoUnderflow val m p.1 p.2) :
    angularFormula N (v.map (N.mul N.two)) x = angularFormula N v x := by
  have norms : ∀ {x : List N.V}, Moderate val Fin lo hi n x →
      lo ^ 2 ≤ dotR (x.map val) (x.map val) ∧ dotR (x.map val) (x.map val) ≤ hi ^ 2 := by
    intro x hx
    rw [dotR_eq, dot_self (n := n) (by rw [List.length_map]; exact hx.length)]
    exact ⟨pow_le_pow_left₀ hlo.le hx.lower 2, pow_le_pow_left₀ (norm_nonneg _) hx.upper 2⟩
  have parts : ∀ {v : List N.V}, Moderate val Fin lo hi n v → _ := fun {v} hv =>
    H.formula_parts K (v := v) (w := x) (hv.length.trans hx.length.symm) hv.finite hx.finite (by rw [hv.length]; exact hn) (norms hv).1 (norms hv).2 (norms hx).1 (norms hx).2
  obtain ⟨⟨⟨fp, ep⟩, ⟨fq, eq⟩, fd, fm, m0, mM, fr, r0, f2, fc⟩, -, -⟩ := parts hv
  obtain ⟨⟨⟨fp', -⟩, -, fd', fm', m0', mM', fr', r0', f2', fc'⟩, -, -⟩ := parts hv'
  have dbl : ∀ a ∈ v, Fin (N.mul N.two a) ∧ val (N.mul N.two a) = 2 * val a := fun a ha => by
    have := hv'.finite _ (List.mem_map_of_mem ha)
    exact ⟨this, S.two (hv.finite a ha) this⟩
  have zip_self : ∀ p ∈ v.zip v, p.1 ∈ v ∧ p.2 = p.1 := fun p hp => by
    exact mem_zip_self v hp
  have e1 : val (Vec.dot N (v.map (N.mul N.two)) (v.map (N.mul N.two))) = 2 ^ 2 * val (Vec.dot N v v) := by
    refine S.dotFrom 2 _ _ v v N.zero N.zero ?_ (by rw [H.zero.2, mul_zero]) fp fp'
    intro p hp
    obtain ⟨h1, h2⟩ := zip_self p hp
    rw [h2, (dbl _ h1).2]
    exact ⟨hv.finite _ h1, hv.finite _ h1, (dbl _ h1).1, (dbl _ h1).1, by ring, hvv _ h1⟩
  have e2 : val (Vec.dot N (v.map (N.mul N.two)) x) = 2 ^ 1 * val (Vec.dot N v x) := by
    have := S.dotFrom 1 (N.mul N.two) id v x N.zero N.zero ?_ (by rw [H.zero.2, mul_zero]) fd (by rw [List.map_id]; exact fd')
    · rwa [List.map_id] at this
    · intro p hp
      have h1 : p.1 ∈ v := (List.of_mem_zip (a := p.1) (b := p.2) hp).1
      have h2 : p.2 ∈ x := (List.of_mem_zip (a := p.1) (b := p.2) hp).2
      rw [(dbl _ h1).2]
      exact ⟨hv.finite _ h1, hx.finite _ h2, (dbl _ h1).1, hx.finite _ h2, by rw [id]; ring, hvx p hp⟩
  have big : m ≤ |val (Vec.dot N v v) * val (Vec.dot N x x)| := by
    have n1 := (norms hv).1
    have n2 := (norms hx).1
    have b1 := (abs_le.1 ep).1
    have b2 := (abs_le.1 eq).1
    have l0 : 0 < lo ^ 2 := by positivity
    have c1 : 9 / 10 * lo ^ 2 ≤ val (Vec.dot N v v) := by linarith
    have c2 : 9 / 10 * lo ^ 2 ≤ val (Vec.dot N x x) := by linarith
    refine le_trans ?_ (le_abs_self _)
    refine le_trans ?_ (mul_le_mul c1 c2 (by positivity) (by linarith))
    have : 0 ≤ (lo ^ 2) ^ 2 := by positivity
    nlinarith
  have e3 := S.mul 2 fp fq fp' fq fm fm' (by rw [e1]; ring) (Or.inr big)
  have e4 := S.sqrt fm fm' fr fr' m0 mM' e3
  have e5 : val (N.mul N.two (Vec.dot N (v.map (N.mul N.two)) x)) = 2 ^ 1 * val (N.mul N.two (Vec.dot N v x)) := by
    rw [S.two fd' f2', S.two fd f2, e2]; ring
  have e6 := S.div f2 fr f2' fr' r0.ne' r0'.ne' fc fc' (by rw [e4, e5]; exact mul_div_mul_left _ _ (by norm_num))
  unfold angularFormula
  rw [if_pos ((H.lt _ _ H.zero.1 fm).2 (by rw [H.zero.2]; exact m0)), if_pos ((H.lt _ _ H.zero.1 fm').2 (by rw [H.zero.2]; exact m0'))]
  exact S.sub fc' fc e6
end

section
variable {R : Rng} {sI : List Nat → List Nat} {sP : List (ieee32.V × Nat) → List (ieee32.V × Nat)} {ix n numCPU : Nat}
  {pol : BuildPolicy} {adds : List (Nat × List ieee32.V)} {trees workers : Int}

theorem formula_doubled32 (hn : n ≤ 2 ^ 17) {v x : List ieee32.V} (hv : Moderate32 n v) (hv' : Moderate32 n (doubled ieee32 v)) (hx : Moderate32 n x)
    (hvv : ∀ a ∈ v, NoUnderflow val32 (2 ^ (-126 : Int)) a a) (hvx : ∀ p ∈ v.zip x, NoUnderflow val32 (2 ^ (-126 : Int)) p.1 p.2) :
    angularFormula ieee32 (doubled ieee32 v) x = angularFormula ieee32 v x :=
  ieee32_shifts.formula ieee32_approx scale32 (by positivity) (arith32 hn).short (by norm_num) hv hv' hx hvv hvx

/-- **C135 for `float32`, distances**: if item `j` was added with twice the vector of item `i`, all of moderate norm and without products that underflow, every item `k` has the same
distance from both, bit for bit. -/
theorem C135_distance_float32 {C : Codec ieee32.V} {s s' : Idx (angularCfg ieee32 C R sI sP ix n)}
    (h : Session (angularCfg ieee32 C R sI sP ix n) numCPU pol adds trees workers s s') (w : World) (hn : n ≤ 2 ^ 17) {i j k : Nat} {v x : List ieee32.V}
    (ei : lastAdded adds i = some v) (ej : lastAdded adds j = some (doubled ieee32 v)) (ek : lastAdded adds k = some x) (hv : Moderate32 n v)
    (hv' : Moderate32 n (doubled ieee32 v)) (hx : Moderate32 n x) (hvv : ∀ a ∈ v, NoUnderflow val32 (2 ^ (-126 : Int)) a a)
    (hvx : ∀ p ∈ v.zip x, NoUnderflow val32 (2 ^ (-126 : Int)) p.1 p.2) : s'.getDistance w j k = s'.getDistance w i k := by
  rw [C66_angular_value ieee32_mulLaws h w ei ek, C66_angular_value ieee32_mulLaws h w ej ek, formula_doubled32 hn hv hv' hx hvv hvx]

/-- **C135 for `float32`, searches**: vectors of at least `3 * sizeof(TIX)` components and of moderate norm, budgets of at least the number of items, no products that underflow: twice the
query has the same answer as the query, distances included, bit for bit. -/
theorem C135_search_float32 {s s' : Idx (angularCfg ieee32 (bvCodec 4) R sI sP ix n)}
    (h : Session (angularCfg ieee32 (bvCodec 4) R sI sP ix n) numCPU pol adds trees workers s s') (hix : 3 * ix ≤ n) (hn : n ≤ 2 ^ 17)
    (hv : ∀ i v, lastAdded adds i = some v → Moderate32 n v) {q : List ieee32.V} (hq : Moderate32 n q) (hq' : Moderate32 n (doubled ieee32 q))
    (hqq : ∀ a ∈ q, NoUnderflow val32 (2 ^ (-126 : Int)) a a) (hqv : ∀ i v, lastAdded adds i = some v → ∀ p ∈ q.zip v, NoUnderflow val32 (2 ^ (-126 : Int)) p.1 p.2)
    (hroots : s'.roots ≠ []) (w w' : World) {k b b' : Int} {fuel fuel' : Nat} {ctx o ctx' o' : Ctx (angularCfg ieee32 (bvCodec 4) R sI sP ix n)} {ids ids' : List Nat}
    {ds ds' : List ieee32.V} (hb : ((addedIds adds).length : Int) ≤ (if b = -1 then k * s'.roots.length else b))
    (hb' : ((addedIds adds).length : Int) ≤ (if b' = -1 then k * s'.roots.length else b'))
    (hr : s'.getNnsByVector fuel w q k b ctx = .ok (ids, ds, o)) (hr' : s'.getNnsByVector fuel' w' (doubled ieee32 q) k b' ctx' = .ok (ids', ds', o')) :
    ids' = ids ∧ ds' = ds := by
  obtain ⟨e1, e2⟩ := C129_float32 h hix hn hv hq hroots w hb hr
  obtain ⟨f1, f2⟩ := C129_float32 h hix hn hv hq' hroots w' hb' hr'
  have e : formulaDist ieee32 (lastAdded adds) (doubled ieee32 q) = formulaDist ieee32 (lastAdded adds) q := by
    funext i
    unfold formulaDist
    cases hi : lastAdded adds i with
    | none => rfl
    | some v => exact formula_doubled32 hn hq hq' (hv i v hi) hqq (hqv i v hi)
  have e' : bruteForce ieee32 adds (doubled ieee32 q) k.toNat = bruteForce ieee32 adds q k.toNat := by unfold bruteForce; rw [e]
  rw [e', e] at f2
  exact ⟨f1.trans (e'.trans e1.symm), f2.trans e2.symm⟩

/-- **C135 for `float32`, dot product, searches**: vectors of at least `3 * sizeof(TIX)` components and of moderate norm, budgets of at least the number of items, no products that underflow: twice the
query has the same answer as the query, distances included, bit for bit. -/
theorem C135_search_dot32 {s s' : Idx (dotCfg ieee32 (bvCodec 4) R sI sP ix n)}
    (h : Session (dotCfg ieee32 (bvCodec 4) R sI sP ix n) numCPU pol adds trees workers s s') (hix : 3 * ix ≤ n) (hn : n ≤ 2 ^ 17)
    (hv : ∀ i v, lastAdded adds i = some v → Moderate32 n v) {q : List ieee32.V} (hq : Moderate32 n q) (hq' : Moderate32 n (doubled ieee32 q))
    (hqq : ∀ a ∈ q, NoUnderflow val32 (2 ^ (-126 : Int)) a a) (hqv : ∀ i v, lastAdded adds i = some v → ∀ p ∈ q.zip v, NoUnderflow val32 (2 ^ (-126 : Int)) p.1 p.2)
    (hroots : s'.roots ≠ []) (w w' : World) {k b b' : Int} {fuel fuel' : Nat} {ctx o ctx' o' : Ctx (dotCfg ieee32 (bvCodec 4) R sI sP ix n)} {ids ids' : List Nat}
    {ds ds' : List ieee32.V} (hb : ((addedIds adds).length : Int) ≤ (if b = -1 then k * s'.roots.length else b))
    (hb' : ((addedIds adds).length : Int) ≤ (if b' = -1 then k * s'.roots.length else b'))
    (hr : s'.getNnsByVector fuel w q k b ctx = .ok (ids, ds, o)) (hr' : s'.getNnsByVector fuel' w' (doubled ieee32 q) k b' ctx' = .ok (ids', ds', o')) :
    ids' = ids ∧ ds' = ds := by
  obtain ⟨e1, e2⟩ := C129_dot32 h hix hn hv hq hroots w hb hr
  obtain ⟨f1, f2⟩ := C129_dot32 h hix hn hv hq' hroots w' hb' hr'
  have e : formulaDist ieee32 (lastAdded adds) (doubled ieee32 q) = formulaDist ieee32 (lastAdded adds) q := by
    funext i
    unfold formulaDist
    cases hi : lastAdded adds i with
    | none => rfl
    | some v => exact formula_doubled32 hn hq hq' (hv i v hi) hqq (hqv i v hi)
  have e' : bruteForce ieee32 adds (doubled ieee32 q) k.toNat = bruteForce ieee32 adds q k.toNat := by unfold bruteForce; rw [e]
  rw [e', e] at f2
  exact ⟨f1.trans (e'.trans e1.symm), f2.trans e2.symm⟩
end

section
variable {R : Rng} {sI : List Nat → List Nat} {sP : List (ieee64.V × Nat) → List (ieee64.V × Nat)} {ix n numCPU : Nat}
  {pol : BuildPolicy} {adds : List (Nat × List ieee64.V)} {trees workers : Int}

theorem formula_doubled64 (hn : n ≤ 2 ^ 46) {v x : List ieee64.V} (hv : Moderate64 n v) (hv' : Moderate64 n (doubled ieee64 v)) (hx : Moderate64 n x)
    (hvv : ∀ a ∈ v, NoUnderflow val64 (2 ^ (-1022 : Int)) a a) (hvx : ∀ p ∈ v.zip x, NoUnderflow val64 (2 ^ (-1022 : Int)) p.1 p.2) :
    angularFormula ieee64 (doubled ieee64 v) x = angularFormula ieee64 v x :=
  ieee64_shifts.formula ieee64_approx scale64 (by positivity) (arith64 hn).short (by
      rw [← pow_mul, ← zpow_natCast, ← zpow_mul, show (2 : ℝ) * 2 ^ (-1022 : Int) = 2 ^ (-1021 : Int) by
        rw [show (-1021 : Int) = 1 + -1022 by norm_num, zpow_add₀ (by norm_num), zpow_one]]
      exact zpow_le_zpow_right₀ (by norm_num) (by norm_num)) hv hv' hx hvv hvx

/-- **C135 for `float64`, distances**: if item `j` was added with twice the vector of item `i`, all of moderate norm and without products that underflow, every item `k` has the same
distance from both, bit for bit. -/
theorem C135_distance_float64 {C : Codec ieee64.V} {s s' : Idx (angularCfg ieee64 C R sI sP ix n)}
    (h : Session (angularCfg ieee64 C R sI sP ix n) numCPU pol adds trees workers s s') (w : World) (hn : n ≤ 2 ^ 46) {i j k : Nat} {v x : List ieee64.V}
    (ei : lastAdded adds i = some v) (ej : lastAdded adds j = some (doubled ieee64 v)) (ek : lastAdded adds k = some x) (hv : Moderate64 n v)
    (hv' : Moderate64 n (doubled ieee64 v)) (hx : Moderate64 n x) (hvv : ∀ a ∈ v, NoUnderflow val64 (2 ^ (-1022 : Int)) a a)
    (hvx : ∀ p ∈ v.zip x, NoUnderflow val64 (2 ^ (-1022 : Int)) p.1 p.2) : s'.getDistance w j k = s'.getDistance w i k := by
  rw [C66_angular_value ieee64_mulLaws h w ei ek, C66_angular_value ieee64_mulLaws h w ej ek, formula_doubled64 hn hv hv' hx hvv hvx]

/-- **C135 for `float64`, searches**: vectors of at least `3 * sizeof(TIX)` components and of moderate norm, budgets of at least the number of items, no products that underflow: twice the
query has the same answer as the query, distances included, bit for bit. -/
theorem C135_search_float64 {s s' : Idx (angularCfg ieee64 (bvCodec 8) R sI sP ix n)}
    (h : Session (angularCfg ieee64 (bvCodec 8) R sI sP ix n) numCPU pol adds trees workers s s') (hix : 3 * ix ≤ n) (hn : n ≤ 2 ^ 46)
    (hv : ∀ i v, lastAdded adds i = some v → Moderate64 n v) {q : List ieee64.V} (hq : Moderate64 n q) (hq' : Moderate64 n (doubled ieee64 q))
    (hqq : ∀ a ∈ q, NoUnderflow val64 (2 ^ (-1022 : Int)) a a) (hqv : ∀ i v, lastAdded adds i = some v → ∀ p ∈ q.zip v, NoUnderflow val64 (2 ^ (-1022 : Int)) p.1 p.2)
    (hroots : s'.roots ≠ []) (w w' : World) {k b b' : Int} {fuel fuel' : Nat} {ctx o ctx' o' : Ctx (angularCfg ieee64 (bvCodec 8) R sI sP ix n)} {ids ids' : List Nat}
    {ds ds' : List ieee64.V} (hb : ((addedIds adds).length : Int) ≤ (if b = -1 then k * s'.roots.length else b))
    (hb' : ((addedIds adds).length : Int) ≤ (if b' = -1 then k * s'.roots.length else b'))
    (hr : s'.getNnsByVector fuel w q k b ctx = .ok (ids, ds, o)) (hr' : s'.getNnsByVector fuel' w' (doubled ieee64 q) k b' ctx' = .ok (ids', ds', o')) :
    ids' = ids ∧ ds' = ds := by
  obtain ⟨e1, e2⟩ := C129_float64 h hix hn hv hq hroots w hb hr
  obtain ⟨f1, f2⟩ := C129_float64 h hix hn hv hq' hroots w' hb' hr'
  have e : formulaDist ieee64 (lastAdded adds) (doubled ieee64 q) = formulaDist ieee64 (lastAdded adds) q := by
    funext i
    unfold formulaDist
    cases hi : lastAdded adds i with
    | none => rfl
    | some v => exact formula_doubled64 hn hq hq' (hv i v hi) hqq (hqv i v hi)
  have e' : bruteForce ieee64 adds (doubled ieee64 q) k.toNat = bruteForce ieee64 adds q k.toNat := by unfold bruteForce; rw [e]
  rw [e', e] at f2
  exact ⟨f1.trans (e'.trans e1.symm), f2.trans e2.symm⟩

/-- **C135 for `float64`, dot product, searches**: vectors of at least `3 * sizeof(TIX)` components and of moderate norm, budgets of at least the number of items, no products that underflow: twice the
query has the same answer as the query, distances included, bit for bit. -/
theorem C135_search_dot64 {s s' : Idx (dotCfg ieee64 (bvCodec 8) R sI sP ix n)}
    (h : Session (dotCfg ieee64 (bvCodec 8) R sI sP ix n) numCPU pol adds trees workers s s') (hix : 3 * ix ≤ n) (hn : n ≤ 2 ^ 46)
    (hv : ∀ i v, lastAdded adds i = some v → Moderate64 n v) {q : List ieee64.V} (hq : Moderate64 n q) (hq' : Moderate64 n (doubled ieee64 q))
    (hqq : ∀ a ∈ q, NoUnderflow val64 (2 ^ (-1022 : Int)) a a) (hqv : ∀ i v, lastAdded adds i = some v → ∀ p ∈ q.zip v, NoUnderflow val64 (2 ^ (-1022 : Int)) p.1 p.2)
    (hroots : s'.roots ≠ []) (w w' : World) {k b b' : Int} {fuel fuel' : Nat} {ctx o ctx' o' : Ctx (dotCfg ieee64 (bvCodec 8) R sI sP ix n)} {ids ids' : List Nat}
    {ds ds' : List ieee64.V} (hb : ((addedIds adds).length : Int) ≤ (if b = -1 then k * s'.roots.length else b))
    (hb' : ((addedIds adds).length : Int) ≤ (if b' = -1 then k * s'.roots.length else b'))
    (hr : s'.getNnsByVector fuel w q k b ctx = .ok (ids, ds, o)) (hr' : s'.getNnsByVector fuel' w' (doubled ieee64 q) k b' ctx' = .ok (ids', ds', o')) :
    ids' = ids ∧ ds' = ds := by
  obtain ⟨e1, e2⟩ := C129_dot64 h hix hn hv hq hroots w hb hr
  obtain ⟨f1, f2⟩ := C129_dot64 h hix hn hv hq' hroots w' hb' hr'
  have e : formulaDist ieee64 (lastAdded adds) (doubled ieee64 q) = formulaDist ieee64 (lastAdded adds) q := by
    funext i
    unfold formulaDist
    cases hi : lastAdded adds i with
    | none => rfl
    | some v => exact formula_doubled64 hn hq hq' (hv i v hi) hqq (hqv i v hi)
  have e' : bruteForce ieee64 adds (doubled ieee64 q) k.toNat = bruteForce ieee64 adds q k.toNat := by unfold bruteForce; rw [e]
  rw [e', e] at f2
  exact ⟨f1.trans (e'.trans e1.symm), f2.trans e2.symm⟩
end

/-! ### items -/

/-- The same items, those chosen by `c` with the doubled vector. -/
def rescaled (N : Num) (c : Nat → Bool) (adds : List (Nat × List N.V)) : List (Nat × List N.V) :=
  adds.map fun p => (p.1, if c p.1 then doubled N p.2 else p.2)

section
variable {N : Num}

theorem lastAdded_rescaled (c : Nat → Bool) (adds : List (Nat × List N.V)) (i : Nat) :
    lastAdded (rescaled N c adds) i = (lastAdded adds i).map fun v => if c i then doubled N v else v := by
  unfold lastAdded rescaled
  rw [← List.map_reverse, List.find?_map, Option.map_map, Option.map_map]
  cases h : adds.reverse.find? (fun p => p.1 = i) with
  | none =>
    have h' : adds.reverse.find? ((fun p : Nat × List N.V => decide (p.1 = i)) ∘ fun p : Nat × List N.V => (p.1, if c p.1 then doubled N p.2 else p.2)) = none := h
    rw [h']
    rfl
  | some p =>
    have h' : adds.reverse.find? ((fun p : Nat × List N.V => decide (p.1 = i)) ∘ fun p : Nat × List N.V => (p.1, if c p.1 then doubled N p.2 else p.2)) = some p := h
    rw [h']
    have : p.1 = i := by simpa using List.find?_some h
    subst this
    rfl

theorem slotCount_rescaled (c : Nat → Bool) (adds : List (Nat × List N.V)) : slotCount (rescaled N c adds) = slotCount adds := by
  unfold slotCount rescaled
  rw [List.foldr_map]

theorem addedIds_rescaled (c : Nat → Bool) (adds : List (Nat × List N.V)) : addedIds (rescaled N c adds) = addedIds adds := by
  unfold addedIds liveOf
  rw [slotCount_rescaled]
  refine List.filter_congr fun i _ => ?_
  rw [lastAdded_rescaled, Option.isSome_map]

theorem dotFrom_comm (hN : N.MulLaws) (a b : List N.V) : ∀ s, Vec.dotFrom N s a b = Vec.dotFrom N s b a := by
  induction a generalizing b with
  | nil => intro s; cases b <;> rfl
  | cons x a ih =>
    intro s
    cases b with
    | nil => rfl
    | cons y b =>
      show Vec.dotFrom N (N.add s (N.mul x y)) a b = Vec.dotFrom N (N.add s (N.mul y x)) b a
      rw [hN.mul_comm, ih]

theorem angularFormula_swap (hN : N.MulLaws) (q v : List N.V) : angularFormula N q v = angularFormula N v q := by
  have h : Vec.dot N q v = Vec.dot N v q := dotFrom_comm hN q v _
  unfold angularFormula
  rw [h, hN.mul_comm (Vec.dot N q q)]
end

/-- **C135 for `float32`, items**: vectors of at least `3 * sizeof(TIX)` components and of moderate norm, budgets of at least the number of items, no products that underflow: an index in which
any of the items have the doubled vector has the same answer to every query, distances included, bit for bit. -/
theorem C135_items_float32 {R R' : Rng} {sI sI' : List Nat → List Nat} {sP sP' : List (ieee32.V × Nat) → List (ieee32.V × Nat)} {ix ix' n numCPU numCPU' : Nat}
    {pol pol' : BuildPolicy} {adds : List (Nat × List ieee32.V)} {c : Nat → Bool} {trees trees' workers workers' : Int}
    {s s' : Idx (angularCfg ieee32 (bvCodec 4) R sI sP ix n)} {t t' : Idx (angularCfg ieee32 (bvCodec 4) R' sI' sP' ix' n)}
    (h : Session (angularCfg ieee32 (bvCodec 4) R sI sP ix n) numCPU pol adds trees workers s s')
    (g : Session (angularCfg ieee32 (bvCodec 4) R' sI' sP' ix' n) numCPU' pol' (rescaled ieee32 c adds) trees' workers' t t')
    (hix : 3 * ix ≤ n) (hix' : 3 * ix' ≤ n) (hn : n ≤ 2 ^ 17) (hv : ∀ i v, lastAdded adds i = some v → Moderate32 n v)
    (hv' : ∀ i v, lastAdded adds i = some v → Moderate32 n (doubled ieee32 v)) {q : List ieee32.V} (hq : Moderate32 n q)
    (hvv : ∀ i v, lastAdded adds i = some v → ∀ a ∈ v, NoUnderflow val32 (2 ^ (-126 : Int)) a a)
    (hvq : ∀ i v, lastAdded adds i = some v → ∀ p ∈ v.zip q, NoUnderflow val32 (2 ^ (-126 : Int)) p.1 p.2) (hroots : s'.roots ≠ []) (hroots' : t'.roots ≠ [])
    (w w' : World) {k b b' : Int} {fuel fuel' : Nat} {ctx o : Ctx (angularCfg ieee32 (bvCodec 4) R sI sP ix n)}
    {ctx' o' : Ctx (angularCfg ieee32 (bvCodec 4) R' sI' sP' ix' n)} {ids ids' : List Nat} {ds ds' : List ieee32.V}
    (hb : ((addedIds adds).length : Int) ≤ (if b = -1 then k * s'.roots.length else b))
    (hb' : ((addedIds adds).length : Int) ≤ (if b' = -1 then k * t'.roots.length else b'))
    (hr : s'.getNnsByVector fuel w q k b ctx = .ok (ids, ds, o)) (hr' : t'.getNnsByVector fuel' w' q k b' ctx' = .ok (ids', ds', o')) :
    ids' = ids ∧ ds' = ds := by
  have hall : ∀ i v, lastAdded (rescaled ieee32 c adds) i = some v → Moderate32 n v := by
    intro i v hi
    rw [lastAdded_rescaled] at hi
    obtain ⟨x, hx, rfl⟩ := Option.map_eq_some_iff.1 hi
    split
    · exact hv' i x hx
    · exact hv i x hx
  obtain ⟨e1, e2⟩ := C129_float32 h hix hn hv hq hroots w hb hr
  obtain ⟨f1, f2⟩ := C129_float32 g hix' hn hall hq hroots' w' (by rw [addedIds_rescaled]; exact hb') hr'
  have e : formulaDist ieee32 (lastAdded (rescaled ieee32 c adds)) q = formulaDist ieee32 (lastAdded adds) q := by
    funext i
    unfold formulaDist
    rw [lastAdded_rescaled]
    cases hi : lastAdded adds i with
    | none => rfl
    | some v =>
      show angularFormula ieee32 q (if c i then doubled ieee32 v else v) = angularFormula ieee32 q v
      split
      · rw [angularFormula_swap ieee32_mulLaws, formula_doubled32 hn (hv i v hi) (hv' i v hi) hq (hvv i v hi) (hvq i v hi), angularFormula_swap ieee32_mulLaws]
      · rfl
  have e' : bruteForce ieee32 (rescaled ieee32 c adds) q k.toNat = bruteForce ieee32 adds q k.toNat := by unfold bruteForce; rw [e, addedIds_rescaled]
  rw [e', e] at f2
  exact ⟨f1.trans (e'.trans e1.symm), f2.trans e2.symm⟩

/-- **C135 for `float32`, dot product, items**: vectors of at least `3 * sizeof(TIX)` components and of moderate norm, budgets of at least the number of items, no products that underflow: an index in which
any of the items have the doubled vector has the same answer to every query, distances included, bit for bit. -/
theorem C135_items_dot32 {R R' : Rng} {sI sI' : List Nat → List Nat} {sP sP' : List (ieee32.V × Nat) → List (ieee32.V × Nat)} {ix ix' n numCPU numCPU' : Nat}
    {pol pol' : BuildPolicy} {adds : List (Nat × List ieee32.V)} {c : Nat → Bool} {trees trees' workers workers' : Int}
    {s s' : Idx (dotCfg ieee32 (bvCodec 4) R sI sP ix n)} {t t' : Idx (dotCfg ieee32 (bvCodec 4) R' sI' sP' ix' n)}
    (h : Session (dotCfg ieee32 (bvCodec 4) R sI sP ix n) numCPU pol adds trees workers s s')
    (g : Session (dotCfg ieee32 (bvCodec 4) R' sI' sP' ix' n) numCPU' pol' (rescaled ieee32 c adds) trees' workers' t t')
    (hix : 3 * ix ≤ n) (hix' : 3 * ix' ≤ n) (hn : n ≤ 2 ^ 17) (hv : ∀ i v, lastAdded adds i = some v → Moderate32 n v)
    (hv' : ∀ i v, lastAdded adds i = some v → Moderate32 n (doubled ieee32 v)) {q : List ieee32.V} (hq : Moderate32 n q)
    (hvv : ∀ i v, lastAdded adds i = some v → ∀ a ∈ v, NoUnderflow val32 (2 ^ (-126 : Int)) a a)
    (hvq : ∀ i v, lastAdded adds i = some v → ∀ p ∈ v.zip q, NoUnderflow val32 (2 ^ (-126 : Int)) p.1 p.2) (hroots : s'.roots ≠ []) (hroots' : t'.roots ≠ [])
    (w w' : World) {k b b' : Int} {fuel fuel' : Nat} {ctx o : Ctx (dotCfg ieee32 (bvCodec 4) R sI sP ix n)}
    {ctx' o' : Ctx (dotCfg ieee32 (bvCodec 4) R' sI' sP' ix' n)} {ids ids' : List Nat} {ds ds' : List ieee32.V}
    (hb : ((addedIds adds).length : Int) ≤ (if b = -1 then k * s'.roots.length else b))
    (hb' : ((addedIds adds).length : Int) ≤ (if b' = -1 then k * t'.roots.length else b'))
    (hr : s'.getNnsByVector fuel w q k b ctx = .ok (ids, ds, o)) (hr' : t'.getNnsByVector fuel' w' q k b' ctx' = .ok (ids', ds', o')) :
    ids' = ids ∧ ds' = ds := by
  have hall : ∀ i v, lastAdded (rescaled ieee32 c adds) i = some v → Moderate32 n v := by
    intro i v hi
    rw [lastAdded_rescaled] at hi
    obtain ⟨x, hx, rfl⟩ := Option.map_eq_some_iff.1 hi
    split
    · exact hv' i x hx
    · exact hv i x hx
  obtain ⟨e1, e2⟩ := C129_dot32 h hix hn hv hq hroots w hb hr
  obtain ⟨f1, f2⟩ := C129_dot32 g hix' hn hall hq hroots' w' (by rw [addedIds_rescaled]; exact hb') hr'
  have e : formulaDist ieee32 (lastAdded (rescaled ieee32 c adds)) q = formulaDist ieee32 (lastAdded adds) q := by
    funext i
    unfold formulaDist
    rw [lastAdded_rescaled]
    cases hi : lastAdded adds i with
    | none => rfl
    | some v =>
      show angularFormula ieee32 q (if c i then doubled ieee32 v else v) = angularFormula ieee32 q v
      split
      · rw [angularFormula_swap ieee32_mulLaws, formula_doubled32 hn (hv i v hi) (hv' i v hi) hq (hvv i v hi) (hvq i v hi), angularFormula_swap ieee32_mulLaws]
      · rfl
  have e' : bruteForce ieee32 (rescaled ieee32 c adds) q k.toNat = bruteForce ieee32 adds q k.toNat := by unfold bruteForce; rw [e, addedIds_rescaled]
  rw [e', e] at f2
  exact ⟨f1.trans (e'.trans e1.symm), f2.trans e2.symm⟩

/-- **C135 for `float64`, items**: vectors of at least `3 * sizeof(TIX)` components and of moderate norm, budgets of at least the number of items, no products that underflow: an index in which
any of the items have the doubled vector has the same answer to every query, distances included, bit for bit. -/
theorem C135_items_float64 {R R' : Rng} {sI sI' : List Nat → List Nat} {sP sP' : List (ieee64.V × Nat) → List (ieee64.V × Nat)} {ix ix' n numCPU numCPU' : Nat}
    {pol pol' : BuildPolicy} {adds : List (Nat × List ieee64.V)} {c : Nat → Bool} {trees trees' workers workers' : Int}
    {s s' : Idx (angularCfg ieee64 (bvCodec 8) R sI sP ix n)} {t t' : Idx (angularCfg ieee64 (bvCodec 8) R' sI' sP' ix' n)}
    (h : Session (angularCfg ieee64 (bvCodec 8) R sI sP ix n) numCPU pol adds trees workers s s')
    (g : Session (angularCfg ieee64 (bvCodec 8) R' sI' sP' ix' n) numCPU' pol' (rescaled ieee64 c adds) trees' workers' t t')
    (hix : 3 * ix ≤ n) (hix' : 3 * ix' ≤ n) (hn : n ≤ 2 ^ 46) (hv : ∀ i v, lastAdded adds i = some v → Moderate64 n v)
    (hv' : ∀ i v, lastAdded adds i = some v → Moderate64 n (doubled ieee64 v)) {q : List ieee64.V} (hq : Moderate64 n q)
    (hvv : ∀ i v, lastAdded adds i = some v → ∀ a ∈ v, NoUnderflow val64 (2 ^ (-1022 : Int)) a a)
    (hvq : ∀ i v, lastAdded adds i = some v → ∀ p ∈ v.zip q, NoUnderflow val64 (2 ^ (-1022 : Int)) p.1 p.2) (hroots : s'.roots ≠ []) (hroots' : t'.roots ≠ [])
    (w w' : World) {k b b' : Int} {fuel fuel' : Nat} {ctx o : Ctx (angularCfg ieee64 (bvCodec 8) R sI sP ix n)}
    {ctx' o' : Ctx (angularCfg ieee64 (bvCodec 8) R' sI' sP' ix' n)} {ids ids' : List Nat} {ds ds' : List ieee64.V}
    (hb : ((addedIds adds).length : Int) ≤ (if b = -1 then k * s'.roots.length else b))
    (hb' : ((addedIds adds).length : Int) ≤ (if b' = -1 then k * t'.roots.length else b'))
    (hr : s'.getNnsByVector fuel w q k b ctx = .ok (ids, ds, o)) (hr' : t'.getNnsByVector fuel' w' q k b' ctx' = .ok (ids', ds', o')) :
    ids' = ids ∧ ds' = ds := by
  have hall : ∀ i v, lastAdded (rescaled ieee64 c adds) i = some v → Moderate64 n v := by
    intro i v hi
    rw [lastAdded_rescaled] at hi
    obtain ⟨x, hx, rfl⟩ := Option.map_eq_some_iff.1 hi
    split
    · exact hv' i x hx
    · exact hv i x hx
  obtain ⟨e1, e2⟩ := C129_float64 h hix hn hv hq hroots w hb hr
  obtain ⟨f1, f2⟩ := C129_float64 g hix' hn hall hq hroots' w' (by rw [addedIds_rescaled]; exact hb') hr'
  have e : formulaDist ieee64 (lastAdded (rescaled ieee64 c adds)) q = formulaDist ieee64 (lastAdded adds) q := by
    funext i
    unfold formulaDist
    rw [lastAdded_rescaled]
    cases hi : lastAdded adds i with
    | none => rfl
    | some v =>
      show angularFormula ieee64 q (if c i then doubled ieee64 v else v) = angularFormula ieee64 q v
      split
      · rw [angularFormula_swap ieee64_mulLaws, formula_doubled64 hn (hv i v hi) (hv' i v hi) hq (hvv i v hi) (hvq i v hi), angularFormula_swap ieee64_mulLaws]
      · rfl
  have e' : bruteForce ieee64 (rescaled ieee64 c adds) q k.toNat = bruteForce ieee64 adds q k.toNat := by unfold bruteForce; rw [e, addedIds_rescaled]
  rw [e', e] at f2
  exact ⟨f1.trans (e'.trans e1.symm), f2.trans e2.symm⟩

/-- **C135 for `float64`, dot product, items**: vectors of at least `3 * sizeof(TIX)` components and of moderate norm, budgets of at least the number of items, no products that underflow: an index in which
any of the items have the doubled vector has the same answer to every query, distances included, bit for bit. -/
theorem C135_items_dot64 {R R' : Rng} {sI sI' : List Nat → List Nat} {sP sP' : List (ieee64.V × Nat) → List (ieee64.V × Nat)} {ix ix' n numCPU numCPU' : Nat}
    {pol pol' : BuildPolicy} {adds : List (Nat × List ieee64.V)} {c : Nat → Bool} {trees trees' workers workers' : Int}
    {s s' : Idx (dotCfg ieee64 (bvCodec 8) R sI sP ix n)} {t t' : Idx (dotCfg ieee64 (bvCodec 8) R' sI' sP' ix' n)}
    (h : Session (dotCfg ieee64 (bvCodec 8) R sI sP ix n) numCPU pol adds trees workers s s')
    (g : Session (dotCfg ieee64 (bvCodec 8) R' sI' sP' ix' n) numCPU' pol' (rescaled ieee64 c adds) trees' workers' t t')
    (hix : 3 * ix ≤ n) (hix' : 3 * ix' ≤ n) (hn : n ≤ 2 ^ 46) (hv : ∀ i v, lastAdded adds i = some v → Moderate64 n v)
    (hv' : ∀ i v, lastAdded adds i = some v → Moderate64 n (doubled ieee64 v)) {q : List ieee64.V} (hq : Moderate64 n q)
    (hvv : ∀ i v, lastAdded adds i = some v → ∀ a ∈ v, NoUnderflow val64 (2 ^ (-1022 : Int)) a a)
    (hvq : ∀ i v, lastAdded adds i = some v → ∀ p ∈ v.zip q, NoUnderflow val64 (2 ^ (-1022 : Int)) p.1 p.2) (hroots : s'.roots ≠ []) (hroots' : t'.roots ≠ [])
    (w w' : World) {k b b' : Int} {fuel fuel' : Nat} {ctx o : Ctx (dotCfg ieee64 (bvCodec 8) R sI sP ix n)}
    {ctx' o' : Ctx (dotCfg ieee64 (bvCodec 8) R' sI' sP' ix' n)} {ids ids' : List Nat} {ds ds' : List ieee64.V}
    (hb : ((addedIds adds).length : Int) ≤ (if b = -1 then k * s'.roots.length else b))
    (hb' : ((addedIds adds).length : Int) ≤ (if b' = -1 then k * t'.roots.length else b'))
    (hr : s'.getNnsByVector fuel w q k b ctx = .ok (ids, ds, o)) (hr' : t'.getNnsByVector fuel' w' q k b' ctx' = .ok (ids', ds', o')) :
    ids' = ids ∧ ds' = ds := by
  have hall : ∀ i v, lastAdded (rescaled ieee64 c adds) i = some v → Moderate64 n v := by
    intro i v hi
    rw [lastAdded_rescaled] at hi
    obtain ⟨x, hx, rfl⟩ := Option.map_eq_some_iff.1 hi
    split
    · exact hv' i x hx
    · exact hv i x hx
  obtain ⟨e1, e2⟩ := C129_dot64 h hix hn hv hq hroots w hb hr
  obtain ⟨f1, f2⟩ := C129_dot64 g hix' hn hall hq hroots' w' (by rw [addedIds_rescaled]; exact hb') hr'
  have e : formulaDist ieee64 (lastAdded (rescaled ieee64 c adds)) q = formulaDist ieee64 (lastAdded adds) q := by
    funext i
    unfold formulaDist
    rw [lastAdded_rescaled]
    cases hi : lastAdded adds i with
    | none => rfl
    | some v =>
      show angularFormula ieee64 q (if c i then doubled ieee64 v else v) = angularFormula ieee64 q v
      split
      · rw [angularFormula_swap ieee64_mulLaws, formula_doubled64 hn (hv i v hi) (hv' i v hi) hq (hvv i v hi) (hvq i v hi), angularFormula_swap ieee64_mulLaws]
      · rfl
  have e' : bruteForce ieee64 (rescaled ieee64 c adds) q k.toNat = bruteForce ieee64 adds q k.toNat := by unfold bruteForce; rw [e, addedIds_rescaled]
  rw [e', e] at f2
  exact ⟨f1.trans (e'.trans e1.symm), f2.trans e2.symm⟩

theorem value_of_bits32 {x : ieee32.V} (h : 64 * 2 ^ f32.mb ≤ f32.mag (BitVec.toNat (w := 32) x)) : (2 : ℝ) ^ (-63 : Int) ≤ |val32 x| := by
  have e : f32.value (63 * 2 ^ f32.mb + 2 ^ f32.mb) = 2 ^ (-63 : Int) := by rw [value_pow]; congr 1
  have h1 : f32.value (63 * 2 ^ f32.mb + 2 ^ f32.mb) ≤ f32.value (f32.mag (BitVec.toNat (w := 32) x)) := f32.value_strictMono.monotone (by omega)
  have h2 := f32.value_nonneg (f32.mag (BitVec.toNat (w := 32) x))
  rw [e] at h1
  unfold val32 Fmt.real
  split
  · rwa [abs_neg, abs_of_nonneg h2]
  · rwa [abs_of_nonneg h2]

theorem noUnderflow32_of_bits {a b : ieee32.V} (ha : f32.mag (BitVec.toNat (w := 32) a) = 0 ∨ 64 * 2 ^ f32.mb ≤ f32.mag (BitVec.toNat (w := 32) a))
    (hb : f32.mag (BitVec.toNat (w := 32) b) = 0 ∨ 64 * 2 ^ f32.mb ≤ f32.mag (BitVec.toNat (w := 32) b)) : NoUnderflow val32 (2 ^ (-126 : Int)) a b := by
  have zero : ∀ {x : ieee32.V}, f32.mag (BitVec.toNat (w := 32) x) = 0 → val32 x = 0 := fun {x} h => by
    unfold val32 Fmt.real
    rw [h, f32.value_zero]
    simp
  rcases ha with ha | ha
  · exact Or.inl (by rw [zero ha, zero_mul])
  rcases hb with hb | hb
  · exact Or.inl (by rw [zero hb, mul_zero])
  right
  rw [abs_mul]
  refine le_trans ?_ (mul_le_mul (value_of_bits32 ha) (value_of_bits32 hb) (by positivity) (abs_nonneg _))
  rw [← zpow_add₀ (by norm_num)]
  norm_num

/-- Items for C135: a vector, twice the vector, and another. -/
def scalingAdds : List (Nat × List ieee32.V) :=
  [(0, [x32 0x3DCCCCCD, x32 0x3F333333]), (1, doubled ieee32 [x32 0x3DCCCCCD, x32 0x3F333333]), (2, [x32 0x3F19999A, x32 0xBE4CCCCD])]

/-- An index with these items: the distances are the same, and not zero. -/
example : ∃ s s', Session (alt32 2) 1 .single scalingAdds 1 1 s s' ∧ (∀ w, s'.getDistance w 1 2 = s'.getDistance w 0 2) ∧
    doubled ieee32 [x32 0x3DCCCCCD, x32 0x3F333333] = [x32 0x3E4CCCCD, x32 0x3FB33333] ∧
    ieee32.lt ieee32.one (angularFormula ieee32 [x32 0x3DCCCCCD, x32 0x3F333333] [x32 0x3F19999A, x32 0xBE4CCCCD]) = true := by
  obtain ⟨s, s', _, h, h1, _⟩ := C10_single (c := alt32 2) (alt32_wf (by decide))
    (Conc.angular_total altRng_inRange (by decide)) (alt32_balanced 2) 1 scalingAdds
    (legalAdds_of (by decide +kernel)) false 0 1 1 (by decide +kernel)
  have bits : ∀ a ∈ [x32 0x3DCCCCCD, x32 0x3F333333, x32 0x3F19999A, x32 0xBE4CCCCD],
      f32.mag (BitVec.toNat (w := 32) a) = 0 ∨ 64 * 2 ^ f32.mb ≤ f32.mag (BitVec.toNat (w := 32) a) := by decide +kernel
  refine ⟨s, s', h, fun w => C135_distance_float32 h w (by decide) (i := 0) (j := 1) (k := 2)
      (v := [x32 0x3DCCCCCD, x32 0x3F333333]) (x := [x32 0x3F19999A, x32 0xBE4CCCCD]) (by decide +kernel) (by decide +kernel) (by decide +kernel) ?_ ?_ ?_ ?_ ?_,
    by decide +kernel, by decide +kernel⟩
  · exact moderate32_of_bits (by decide) (by decide) (by decide +kernel) ⟨0, by decide +kernel⟩
  · exact moderate32_of_bits (by decide) (by decide) (by decide +kernel) ⟨0, by decide +kernel⟩
  · exact moderate32_of_bits (by decide) (by decide) (by decide +kernel) ⟨0, by decide +kernel⟩
  · intro a ha
    have := bits a (by simp only [List.mem_cons] at ha ⊢; tauto)
    exact noUnderflow32_of_bits this this
  · intro p hp
    have h1 := (List.of_mem_zip (a := p.1) (b := p.2) hp).1
    have h2 := (List.of_mem_zip (a := p.1) (b := p.2) hp).2
    exact noUnderflow32_of_bits (bits p.1 (by simp only [List.mem_cons] at h1 ⊢; tauto)) (bits p.2 (by simp only [List.mem_cons] at h2 ⊢; tauto))

/-- An index of twenty items with a query and its double, for the searches. -/
example : ∃ s s', Session (angular32 4 12) 1 .single (longAdds 20) 3 1 s s' ∧ (∀ i v, lastAdded (longAdds 20) i = some v → Moderate32 12 v) ∧ Moderate32 12 query12 ∧
    Moderate32 12 (doubled ieee32 query12) ∧ s'.roots.length = 3 ∧ (∀ a ∈ query12, NoUnderflow val32 (2 ^ (-126 : Int)) a a) ∧
    ∀ p ∈ (longAdds 20), ∀ b ∈ p.2, ∀ a ∈ query12, NoUnderflow val32 (2 ^ (-126 : Int)) a b := by
  obtain ⟨s, s', -, h, h1, -⟩ := C76_build (c := angular32 4 12) (.angular32 (by decide) (by decide)) 1 (longAdds 20) (legalAdds_of (by decide +kernel)) (Kiss32.new 0) 0 3 1
    (by decide +kernel)
  have b1 : ∀ a ∈ query12, f32.mag (BitVec.toNat (w := 32) a) = 0 ∨ 64 * 2 ^ f32.mb ≤ f32.mag (BitVec.toNat (w := 32) a) := by decide +kernel
  have b2 : ∀ p ∈ (longAdds 20), ∀ b ∈ p.2, f32.mag (BitVec.toNat (w := 32) b) = 0 ∨ 64 * 2 ^ f32.mb ≤ f32.mag (BitVec.toNat (w := 32) b) := by decide +kernel
  exact ⟨s, s', h, longAdds_moderate, moderate32_of_bits (by decide) (by decide) (by decide +kernel) ⟨0, by decide +kernel⟩,
    moderate32_of_bits (by decide) (by decide) (by decide +kernel) ⟨0, by decide +kernel⟩, h1 (by decide),
    fun a ha => noUnderflow32_of_bits (b1 a ha) (b1 a ha), fun p hp b hb a ha => noUnderflow32_of_bits (b1 a ha) (b2 p hp b hb)⟩

/-- Indexes of twenty items and of the same items, every other one doubled, for the items. -/
example : ∃ s s' t t', Session (angular32 4 12) 1 .single (longAdds 20) 3 1 s s' ∧
    Session (angular32 4 12) 1 .single (rescaled ieee32 (fun i => i % 2 == 0) (longAdds 20)) 2 1 t t' ∧ s'.roots.length = 3 ∧ t'.roots.length = 2 ∧
    ∀ p ∈ (longAdds 20), Moderate32 12 (doubled ieee32 p.2) ∧ ∀ a ∈ p.2, NoUnderflow val32 (2 ^ (-126 : Int)) a a := by
  obtain ⟨s, s', -, h, h1, -⟩ := C76_build (c := angular32 4 12) (.angular32 (by decide) (by decide)) 1 (longAdds 20) (legalAdds_of (by decide +kernel)) (Kiss32.new 0) 0 3 1
    (by decide +kernel)
  obtain ⟨t, t', -, g, g1, -⟩ := C76_build (c := angular32 4 12) (.angular32 (by decide) (by decide)) 1 (rescaled ieee32 (fun i => i % 2 == 0) (longAdds 20))
    (legalAdds_of (by decide +kernel)) (Kiss32.new 7) 0 2 1 (by decide +kernel)
  have b1 : ∀ p ∈ (longAdds 20), (doubled ieee32 p.2).length = 12 ∧ (∀ x ∈ doubled ieee32 p.2, f32.mag (BitVec.toNat (w := 32) x) ≤ 147 * 2 ^ f32.mb) ∧
      ∃ i ∈ List.range 12, 96 * 2 ^ f32.mb ≤ f32.mag (BitVec.toNat (w := 32) ((doubled ieee32 p.2).getD i ieee32.zero)) := by decide +kernel
  have b2 : ∀ p ∈ (longAdds 20), ∀ b ∈ p.2, f32.mag (BitVec.toNat (w := 32) b) = 0 ∨ 64 * 2 ^ f32.mb ≤ f32.mag (BitVec.toNat (w := 32) b) := by decide +kernel
  refine ⟨s, s', t, t', h, g, h1 (by decide), g1 (by decide), fun p hp => ⟨?_, fun a ha => noUnderflow32_of_bits (b2 p hp a ha) (b2 p hp a ha)⟩⟩
  obtain ⟨c1, c2, i, -, c3⟩ := b1 p hp
  exact moderate32_of_bits c1 (by decide) c2 ⟨i, c3⟩

end Annoy
