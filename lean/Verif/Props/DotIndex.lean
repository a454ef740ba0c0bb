import Verif.Props.Margins
import Verif.Props.HistoryReal
/-!
# The dot product index (C99, C100, C101)

`PreProcess` gives every item a dot factor, the missing component that would make all items equally long.  But a hyperplane is made from the vectors
alone and starts with a dot factor of zero, which stays zero.  So the index divides, and ranks, by the angle.
-/
namespace Annoy
open Ieee

/-! ## Hyperplanes have no dot factor -/

/-- The bytes of the dot factor of a node at address 0 are zero. -/
def BlankFactor {V : Type} (L : Layout) (C : Codec V) (m : Bytes) : Prop := ∀ j, L.offV - C.sz ≤ j → j < L.offV → m j = 0

/-- Zero divided by a positive number is zero, also as bytes. -/
def ZeroOver (N : Num) (C : Codec N.V) : Prop :=
  ∀ x, N.lt N.zero x = true → C.enc (N.div (C.dec (List.replicate C.sz 0)) x) = List.replicate C.sz 0

section
variable {N : Num} {L : Layout} {C : Codec N.V} {R : Rng}

theorem BlankFactor.dotFactor {m : Bytes} (h : BlankFactor L C m) (hsz : C.sz ≤ L.offV) :
    Node.dotFactor L C m 0 = C.dec (List.replicate C.sz 0) := by
  unfold Node.dotFactor
  congr 1
  apply List.ext_getElem
  · simp [readBytes]
  · intro j h1 h2
    simp only [List.length_replicate] at h2
    simp only [readBytes, List.getElem_map, List.getElem_range, List.getElem_replicate]
    exact h _ (by omega) (by omega)

theorem BlankFactor.setVec {m : Bytes} (h : BlankFactor L C m) (v : List N.V) : BlankFactor L C (Node.setVec L C m 0 v) := by
  intro j h1 h2
  rw [Node.setVec_frame _ _ _ _ _ (Or.inl (by omega))]
  exact h j h1 h2

theorem BlankFactor.normalize {m : Bytes} (h : BlankFactor L C m) (hz : ZeroOver N C) (hsz : C.sz ≤ L.offV) :
    BlankFactor L C (DotProduct.normalize (L := L) C m 0) := by
  unfold DotProduct.normalize
  dsimp only
  split
  · next hlt =>
    have h1 := h.setVec ((Node.vec L C m 0).map fun x => N.div x (Vec.getNorm N (Node.vec L C m 0)))
    intro j j1 j2
    unfold Node.setDotFactor
    rw [h1.dotFactor hsz, hz _ hlt, writeBytes_apply]
    split
    · rw [List.getD_eq_getElem?_getD, List.getElem?_replicate]
      split <;> rfl
    · exact h1 j j1 j2
  · exact h

theorem BlankFactor.createSplit {mem m m' : Bytes} {addrs : List Nat} {r r' : R.σ} (h : BlankFactor L C m) (hz : ZeroOver N C)
    (hsz : C.sz ≤ L.offV) (he : DotProduct.createSplit (L := L) C mem addrs r m = .ok (m', r')) : BlankFactor L C m' := by
  unfold DotProduct.createSplit at he
  cases e : twoMeans (L := L) C mem addrs r true (Angular.distance (L := L) C) (DotProduct.normalize (L := L) C) (fun b _ => b) with
  | error x => rw [e] at he; cases he
  | ok y =>
    obtain ⟨p, q, r1⟩ := y
    rw [e] at he
    simp only [bind, Except.bind, Except.ok.injEq, Prod.mk.injEq] at he
    rw [← he.1]
    exact (h.setVec _).normalize hz hsz
end

theorem Scratch.blankFactor {N : Num} {C : Codec N.V} {R : Rng} {sI sP} {k f : Nat} (hz : ZeroOver N C) (hsz : C.sz ≤ (dotLayout k C.sz f).offV) {m : Bytes}
    (h : Scratch (dotCfg N C R sI sP k f) m) : BlankFactor (dotLayout k C.sz f) C m := by
  induction h with
  | fresh => exact fun _ _ _ => rfl
  | used _ he ih => exact ih.createSplit hz hsz he

theorem Ieee.Fmt.zero_over {F : Fmt} (hF : F.Ok) {x : Nat} (h : F.lt 0 x = true) : F.div 0 x = 0 := by
  unfold Fmt.lt at h
  simp only [Bool.and_eq_true, Bool.not_eq_true', decide_eq_true_eq] at h
  obtain ⟨⟨h1, h2⟩, h3⟩ := h
  have hp : (0 : Nat) < F.signBit := Nat.two_pow_pos _
  have m0 : F.mag 0 = 0 := by simp [Fmt.mag]
  have n0 : F.isNeg 0 = false := by simp [Fmt.isNeg, hp.ne']
  have k0 : F.key 0 = 0 := by simp [Fmt.key, m0]
  rw [k0] at h3
  have hn : F.isNeg x = false := by
    by_contra hc
    simp only [Bool.not_eq_false] at hc
    rw [Fmt.key, if_pos hc] at h3
    omega
  rw [Fmt.key, if_neg (by simp [hn])] at h3
  have hm : 0 < F.mag x := by omega
  have hle : F.mag x ≤ F.infBits := by simpa [Fmt.isNaN] using h2
  rcases hle.lt_or_eq with hlt | heq
  · rw [F.zero_div hF hm hlt m0, n0, hn]
    simp [Fmt.signed]
  · have e1 : F.mag x / 2 ^ F.mb = 2 ^ F.eb - 1 := by
      rw [heq]; exact Nat.mul_div_cancel _ (Nat.two_pow_pos _)
    have e2 : F.mag x % 2 ^ F.mb = 0 := by rw [heq]; exact Nat.mul_mod_left _ _
    have d : F.decode x = .inf (F.isNeg x) := by
      unfold Fmt.decode
      dsimp only
      rw [if_pos e1, if_pos e2]
    unfold Fmt.div
    rw [d, F.decode_zero hF m0, n0, hn]
    simp [Fmt.signed]

theorem zeroOver32 : ZeroOver ieee32 (bvCodec 4) := by
  intro x h
  have e : (bvCodec 4).dec (List.replicate (bvCodec 4).sz 0) = ieee32.zero := by
    show @Eq (BitVec 32) ((bvCodec 4).dec (List.replicate 4 0)) 0
    decide
  rw [e]
  have h' : f32.lt 0 (BitVec.toNat (w := 32) x) = true := h
  have : ieee32.div ieee32.zero x = ieee32.zero := by
    show BitVec.ofNat 32 (f32.div 0 _) = _
    rw [Fmt.zero_over f32_ok h']
    rfl
  rw [this]
  decide

theorem zeroOver64 : ZeroOver ieee64 (bvCodec 8) := by
  intro x h
  have e : (bvCodec 8).dec (List.replicate (bvCodec 8).sz 0) = ieee64.zero := by
    show @Eq (BitVec 64) ((bvCodec 8).dec (List.replicate 8 0)) 0
    decide
  rw [e]
  have h' : f64.lt 0 (BitVec.toNat (w := 64) x) = true := h
  have : ieee64.div ieee64.zero x = ieee64.zero := by
    show BitVec.ofNat 64 (f64.div 0 _) = _
    rw [Fmt.zero_over f64_ok h']
    rfl
  rw [this]
  decide

/-- What an inner node keeps: the first `vectorLength` bytes of a temporary node, the rest is blank. -/
theorem Session.innerBytes {c : Cfg} {numCPU : Nat} {pol : BuildPolicy} {adds : List (Nat × List c.N.V)} {trees workers : Int} {s s' : Idx c}
    (h : Session c numCPU pol adds trees workers s s') (hs : SplitsKept c numCPU pol (slotCount adds) trees workers)
    {i : Nat} (h1 : s'.nItems ≤ i) (h2 : i + s'.roots.length < s'.nNodes) (hK : c.L.K < ndAt c.L s'.alloc.data i) :
    ∃ m m0, Scratch c m0 ∧ (m = m0 ∨ m = Node.setVec c.L c.C m0 0 (List.replicate c.L.f c.N.zero)) ∧
      ∀ j, 3 * c.L.szIX ≤ j → j < c.L.nodeSize →
        s'.alloc.data (i * c.L.nodeSize + j) = m j ∨ s'.alloc.data (i * c.L.nodeSize + j) = 0 := by
  obtain ⟨N0, B0, hN, _⟩ := h.built
  have hL := h.wf.layout
  have hNN := B0.nNodes
  have hnI := B0.nItems
  obtain ⟨ts, t1, t2, t3⟩ := B0.sided (by
    rcases hs with hs | hs
    · exact Or.inr hs
    · exact Or.inl (hs.mono (by omega)))
  have hi : i ∈ ts.flatMap Tree.inner := t3.mem_iff.2 (List.mem_range'_1.2 ⟨by omega, by have := B0.n_le; omega⟩)
  obtain ⟨t, ht, hi⟩ := List.mem_flatMap.1 hi
  obtain ⟨l, r, hp⟩ := (t2 t ht).1.splits_of_inner hi hK
  rcases (t2 t ht).2.splits _ hp with ⟨m, e0', e5⟩ | ⟨⟨j, j', e1, e2⟩, e3⟩
  · obtain ⟨-, m0, ids, e1, ⟨d, r1, m1, r2, e2, e0, e3⟩, e4⟩ := e0'.simple
    have hblank := (B0.downward i (by omega) (by omega)).2.2 hK
    refine ⟨m, m0, e0.used e3, e4.imp (fun e => e.1) id, fun j j1 j2 => ?_⟩
    by_cases hj : j < c.L.f
    · exact Or.inl (e5 j j1 hj)
    · exact Or.inr (hblank j (max_le (by omega) (by omega)) j2)
  · exact ⟨zeros, zeros, .fresh, Or.inl rfl, fun j j1 j2 => Or.inr (e3 j j1 j2)⟩

section
variable {N : Num} {C : Codec N.V} {R : Rng} {sI : List Nat → List Nat} {sP : List (N.V × Nat) → List (N.V × Nat)} {k f numCPU : Nat}
  {pol : BuildPolicy} {adds : List (Nat × List N.V)} {trees workers : Int} {s s' : Idx (dotCfg N C R sI sP k f)}

/-- **C99**: no inner node of a built dot product index has a dot factor. -/
theorem C99_factor (hz : ZeroOver N C) (h : Session (dotCfg N C R sI sP k f) numCPU pol adds trees workers s s')
    (hs : SplitsKept (dotCfg N C R sI sP k f) numCPU pol (slotCount adds) trees workers)
    {i : Nat} (h1 : s'.nItems ≤ i) (h2 : i + s'.roots.length < s'.nNodes) (hK : (dotCfg N C R sI sP k f).L.K < ndAt (dotCfg N C R sI sP k f).L s'.alloc.data i) :
    Node.dotFactor (dotLayout k C.sz f) C s'.alloc.data (i * (dotLayout k C.sz f).nodeSize) = C.dec (List.replicate C.sz 0) := by
  obtain ⟨m, m0, e1, e2, e3⟩ := h.innerBytes hs h1 h2 hK
  have hL : (dotLayout k C.sz f).Ok C.sz := h.wf.layout
  have hpos := hL.sz_pos
  have hoff := dotLayout_off (k := k) (f := f) hpos
  have hm0 := e1.blankFactor hz (by omega)
  have hm : BlankFactor (dotLayout k C.sz f) C m := by
    rcases e2 with rfl | rfl
    · exact hm0
    · exact hm0.setVec _
  rw [← hm.dotFactor (by omega)]
  apply Node.dotFactor_congr
  intro j hj
  have hsz := hL.size_eq
  have e4 : s'.alloc.data (i * (dotLayout k C.sz f).nodeSize + ((dotLayout k C.sz f).offV - C.sz + j)) = m ((dotLayout k C.sz f).offV - C.sz + j) ∨
      s'.alloc.data (i * (dotLayout k C.sz f).nodeSize + ((dotLayout k C.sz f).offV - C.sz + j)) = 0 :=
    e3 _ (show 3 * k ≤ _ by omega) (show _ < (dotLayout k C.sz f).nodeSize by omega)
  have e5 := hm ((dotLayout k C.sz f).offV - C.sz + j) (by omega) (by omega)
  rw [e5, or_self] at e4
  rw [show i * (dotLayout k C.sz f).nodeSize + (dotLayout k C.sz f).offV - C.sz + j =
    i * (dotLayout k C.sz f).nodeSize + ((dotLayout k C.sz f).offV - C.sz + j) by omega, e4,
    show 0 + (dotLayout k C.sz f).offV - C.sz + j = (dotLayout k C.sz f).offV - C.sz + j by omega, e5]

/-- **C99**: the margin of a query at an inner node is its inner product with the stored normal vector, as far as comparisons can tell. -/
theorem C99_margin (K : N.Canon) (hz : ZeroOver N C) (h0 : C.dec (List.replicate C.sz 0) = N.zero) (hf0 : K.fin N.zero)
    (h : Session (dotCfg N C R sI sP k f) numCPU pol adds trees workers s s')
    (hs : SplitsKept (dotCfg N C R sI sP k f) numCPU pol (slotCount adds) trees workers)
    {i : Nat} (h1 : s'.nItems ≤ i) (h2 : i + s'.roots.length < s'.nNodes) (hK : (dotCfg N C R sI sP k f).L.K < ndAt (dotCfg N C R sI sP k f).L s'.alloc.data i)
    {q : List N.V} {y : N.V}
    (hy : (dotCfg N C R sI sP k f).D.margin s'.alloc.data (i * (dotCfg N C R sI sP k f).L.nodeSize) q = .ok y) :
    K.can y = K.can (Vec.dot N (Node.vec (dotLayout k C.sz f) C s'.alloc.data (i * (dotLayout k C.sz f).nodeSize)) q) := by
  rw [dot_margin_eq hy]
  have e := C99_factor hz h hs h1 h2 hK
  refine (congrArg (fun z => K.can (N.add _ (N.mul z z))) (e.trans h0)).trans ?_
  exact K.add_zero _ (K.mul_zero hf0)

/-- Finite values that comparisons cannot tell apart. -/
theorem Num.Canon.finite (K : N.Canon) {x y : N.V} (e : K.can x = K.can y) (h : N.Finite y) : N.Finite x := by
  refine ⟨?_, ?_⟩
  · rw [← K.lt, e, K.lt]; exact h.1
  · rw [← K.lt, K.neg e, K.lt]; exact h.2

theorem DotProduct.vec_normalize {L : Layout} (hsz : C.sz ≤ L.offV) (b : Bytes) :
    Node.vec L C (DotProduct.normalize (L := L) C b 0) 0 = Vec.normalize N (Node.vec L C b 0) := by
  unfold DotProduct.normalize Vec.normalize
  dsimp only
  have hl : ((Node.vec L C b 0).map fun x => N.div x (Vec.getNorm N (Node.vec L C b 0))).length = L.f := by simp
  split
  · refine Eq.trans ?_ (Node.vec_setVec (L := L) C b 0 _ hl)
    apply Node.vec_congr
    intro j hj
    exact Node.setDotFactor_frame _ _ _ _ _ hsz (Or.inr (by omega))
  · rfl

variable {val : N.V → ℝ} {Fin : N.V → Prop} {u t M : ℝ}

/-- The normal vectors of hyperplanes have components of at most `X`. -/
theorem Steady.createSplitDot (K : Steady N val Fin u t M) {L : Layout} (hL : L.Ok C.sz) (hsz : C.sz ≤ L.offV) (hC : CutTiny C val Fin) {B X : ℝ}
    (P : Room u t M L.f B X)
    (hB : 1 ≤ B) {mem : Bytes} {addrs : List Nat} (hitems : ∀ a ∈ addrs, Small val Fin B (Node.vec L C mem a)) {r r' : R.σ} {m m' : Bytes}
    (h : DotProduct.createSplit (L := L) C mem addrs r m = .ok (m', r')) : Small val Fin X (Node.vec L C m' 0) := by
  obtain ⟨p, q, h1, h2⟩ := C50_create_split_dot C hsz h
  obtain ⟨h3, h4⟩ := K.means hL hC P hB hitems (fun _ => rfl) (DotProduct.vec_normalize hsz) h1
  rw [h2]
  exact K.normal P (Node.vec_length _ _ _) (Node.vec_length _ _ _) h3 h4

/-- **C99**, in terms of an arithmetic: the margins of ordinary data are finite. -/
theorem Steady.finiteMarginsDot (K : Steady N val Fin u t M) (Kc : N.Canon) (hz : ZeroOver N C) (h0 : C.dec (List.replicate C.sz 0) = N.zero)
    (hf0 : Kc.fin N.zero) (hC : CutTiny C val Fin) {B X Q : ℝ} (P : Room u t M f B X) (hB : 1 ≤ B)
    (hQ : 0 ≤ Q) (hQM : 3 * (f * (X * Q)) + 2 ≤ M) (h : Session (dotCfg N C R sI sP k f) numCPU pol adds trees workers s s')
    (hs : SplitsKept (dotCfg N C R sI sP k f) numCPU pol (slotCount adds) trees workers)
    (hitems : ∀ i v, lastAdded adds i = some v → Small val Fin B v) (w : World) {q : List N.V} (hf : 0 < f) (hq : q.length = f) (hqs : Small val Fin Q q) :
    FiniteMargins s' w q := by
  intro i h1 h2 hK
  obtain ⟨N0, B0, _⟩ := h.built
  have e := (B0.mem_eq w (by omega)).1
  rw [e] at hK ⊢
  obtain ⟨y, hy⟩ := dot_marginOk (C := C) (R := R) (sI := sI) (sP := sP) (k := k) hq hf s'.alloc.data (i * (dotCfg N C R sI sP k f).L.nodeSize)
  refine ⟨y, hy, Kc.finite (C99_margin Kc hz h0 hf0 h hs h1 h2 hK hy) ?_⟩
  have hL : (dotLayout k C.sz f).Ok C.sz := h.wf.layout
  have hoff := dotLayout_off (k := k) (f := f) hL.sz_pos
  exact K.finite _ (K.margin P hQ hQM (Node.vec_length _ _ _) hq (h.stored K.approx.zero hC P.R1
    (fun _ _ _ _ _ _ ha he => K.createSplitDot hL (by omega) hC P hB ha he) hs hitems h1 h2 hK) hqs)

theorem vecDist_dot (hN : N.MulLaws) (hz : N.eq (C.dec (List.replicate C.sz 0)) N.zero = true) (hc : (dotCfg N C R sI sP k f).WF) {q v : List N.V}
    (hq : q.length = f) (hv : v.length = f) : vecDist (dotCfg N C R sI sP k f) q v = angularFormula N q v := by
  have key : ∀ v : List N.V, v.length = f → Node.norm (dotLayout k C.sz f) C (canon (dotCfg N C R sI sP k f) v) 0 = C.dec (List.replicate C.sz 0) := by
    intro v hv
    unfold Node.norm
    congr 1
    apply List.ext_getElem
    · simp
    · intro j h1 h2
      have hj : j < C.sz := by simpa using h1
      have hoff : 3 * k ≤ (dotLayout k C.sz f).offV := hc.layout.offV_ge
      have hnf : C.sz ≤ 2 * k := hc.layout.norm_fits
      have : canon (dotCfg N C R sI sP k f) v (0 + k + j) = 0 := by
        show Node.setVec (dotLayout k C.sz f) C zeros 0 v _ = 0
        rw [Node.setVec_frame C _ _ _ _ (.inl (by omega))]
        rfl
      have hr : (readBytes (canon (dotCfg N C R sI sP k f) v) (0 + k) C.sz)[j]'h1 = canon (dotCfg N C R sI sP k f) v (0 + k + j) := by simp [readBytes]
      exact hr.trans (this.trans (by simp))
  have kq := canon_vec hc hq
  have kv := canon_vec hc hv
  show Vec.cosDistance N _ _ _ _ = _
  rw [← Vec.cosDistance_formula hN q v (.inr hz) (.inr hz)]
  have e1 := key q hq
  have e2 := key v hv
  refine Eq.trans ?_ (congrArg₂ (Vec.cosDistance N (C.dec (List.replicate C.sz 0)) (C.dec (List.replicate C.sz 0))) kq kv)
  exact congrArg₂ (fun a b => Vec.cosDistance N a b _ _) e1 e2
end

/-! ## Searches rank by the angle -/

/-- A right answer of a dot product index by real distances of the directions, up to rounding.  What is reported for an item is minus the square of this
distance, that is `2 cos - 2`. -/
structure AlmostTopDot (N : Num) (val : N.V → ℝ) (Fin : N.V → Prop) (n : Nat) (u : ℝ) (δ : Nat → ℝ) (S : List Nat) (k : Nat) (ids : List Nat)
    (ds : List N.V) : Prop where
  length : ids.length = min k S.length
  nodup : ids.Nodup
  sub : ∀ i ∈ ids, i ∈ S
  dists : List.Forall₂ (fun i d => Fin d ∧ |val d + δ i ^ 2| ≤ sqErr n u) ids ds
  sorted : ids.Pairwise fun i j => δ i ^ 2 ≤ δ j ^ 2 + 2 * sqErr n u
  least : ∀ i ∈ ids, ∀ j ∈ S, j ∉ ids → δ i ^ 2 ≤ δ j ^ 2 + 2 * sqErr n u

/-- What the dot product index needs to know about an arithmetic. -/
structure DotArith (N : Num) (C : Codec N.V) (val : N.V → ℝ) (Fin : N.V → Prop) : Prop where
  over : ZeroOver N C
  blank : C.dec (List.replicate C.sz 0) = N.zero
  zero : N.eq N.zero N.zero = true
  neg : ∀ x, Fin x → Fin (N.neg x) ∧ val (N.neg x) = -val x

section
variable {N : Num} {val : N.V → ℝ} {Fin : N.V → Prop} {u t M lo hi : ℝ} {n : Nat} {C : Codec N.V} {R : Rng} {sI : List Nat → List Nat}
  {sP : List (N.V × Nat) → List (N.V × Nat)} {ix numCPU : Nat} {pol : BuildPolicy} {adds : List (Nat × List N.V)} {trees workers : Int}
  {s s' : Idx (dotCfg N C R sI sP ix n)}

theorem Arith.itemDistDot (A : Arith N val Fin u t M lo hi n) (Z : DotArith N C val Fin) (hc : (dotCfg N C R sI sP ix n).WF) {q : List N.V}
    (hq : Moderate val Fin lo hi n q) {m : Nat → Option (List N.V)} {i : Nat} (hm : (m i).isSome)
    (hv : ∀ v, m i = some v → Moderate val Fin lo hi n v) :
    Fin (Annoy.itemDist (dotCfg N C R sI sP ix n) m q i) ∧
    |val (Annoy.itemDist (dotCfg N C R sI sP ix n) m q i) - trueDist val n m q i ^ 2| ≤ sqErr n u := by
  obtain ⟨v, e⟩ := Option.isSome_iff_exists.1 hm
  have h1 : Annoy.itemDist (dotCfg N C R sI sP ix n) m q i = angularFormula N q v := by
    unfold Annoy.itemDist
    rw [e]
    exact vecDist_dot A.mul (by rw [Z.blank]; exact Z.zero) hc hq.length (hv v e).length
  have h2 : trueDist val n m q i = chord n (q.map val) (v.map val) := by unfold trueDist; rw [e]; rfl
  rw [h1, h2]
  exact A.approx.accurate A.scale A.lo0 A.short hq (hv v e)

theorem Arith.topDot (A : Arith N val Fin u t M lo hi n) (Z : DotArith N C val Fin) (hc : (dotCfg N C R sI sP ix n).WF) {q : List N.V}
    (hq : Moderate val Fin lo hi n q) {m : Nat → Option (List N.V)} {S ids : List Nat} {ds : List N.V} {k : Nat} (hm : ∀ i ∈ S, (m i).isSome)
    (hv : ∀ i ∈ S, ∀ v, m i = some v → Moderate val Fin lo hi n v)
    (T : TopK N N.neg (Annoy.itemDist (dotCfg N C R sI sP ix n) m q) S k ids ds) :
    AlmostTopDot N val Fin n u (trueDist val n m q) S k ids ds := by
  have D := fun i (h : i ∈ S) => A.itemDistDot Z hc hq (hm i h) (hv i h)
  have ho : ∀ i ∈ S, N.Ordinary (Annoy.itemDist (dotCfg N C R sI sP ix n) m q i) := fun i h => A.approx.ordinary _ (D i h).1
  refine ⟨T.length, T.nodup, T.sub, ?_, ?_, ?_⟩
  · rw [T.dists, List.forall₂_map_right_iff, List.forall₂_same]
    intro i hi
    obtain ⟨d1, d2⟩ := D i (T.sub i hi)
    obtain ⟨n1, n2⟩ := Z.neg _ d1
    refine ⟨n1, ?_⟩
    rw [n2, ← abs_neg]
    convert d2 using 2
    ring
  · have h1 := T.sorted ho
    rw [List.pairwise_map] at h1
    refine h1.imp_of_mem fun {i j} hi hj h => ?_
    have di := D i (T.sub i hi)
    have dj := D j (T.sub j hj)
    exact A.pairLt di.1 dj.1 di.2 dj.2 h
  · intro i hi j hj hn
    have di := D i (T.sub i hi)
    have dj := D j hj
    exact A.pairLt di.1 dj.1 di.2 dj.2 (T.least ho i hi j hj hn)

theorem Arith.items_suffice_dot (A : Arith N val Fin u t M lo hi n) (Z : DotArith N C val Fin) (hk : N.KeyLaws)
    (h : Session (dotCfg N C R sI sP ix n) numCPU pol adds trees workers s s')
    (hs : SplitsKept (dotCfg N C R sI sP ix n) numCPU pol (slotCount adds) trees workers) (w : World) (hn : 0 < n) {q : List N.V}
    (hq : Moderate val Fin lo hi n q) (hv : ∀ i v, lastAdded adds i = some v → Moderate val Fin lo hi n v) (hroots : s'.roots ≠ [])
    (hfin : FiniteMargins s' w q)
    {k b : Int} {fuel : Nat} {ctx ctx' : Ctx (dotCfg N C R sI sP ix n)} {ids : List Nat} {ds : List N.V}
    (hb : ((addedIds adds).length : Int) ≤ (if b = -1 then k * s'.roots.length else b))
    (hr : s'.getNnsByVector fuel w q k b ctx = .ok (ids, ds, ctx')) :
    AlmostTopDot N val Fin n u (trueDist val n (lastAdded adds) q) (addedIds adds) k.toNat ids ds :=
  A.topDot Z h.wf hq (fun _ hi => mem_addedIds.1 hi) (fun i _ => hv i)
    (h.C86_items_suffice hs hk dot_minKeys w ⟨hq.length, dot_marginOk hq.length hn⟩ (h.finiteBelow hs hfin) hroots hb hr).1

theorem Arith.items_suffice_dot_loaded (A : Arith N val Fin u t M lo hi n) (Z : DotArith N C val Fin) (hk : N.KeyLaws)
    (h : Session (dotCfg N C R sI sP ix n) numCPU pol adds trees workers s s')
    (hs : SplitsKept (dotCfg N C R sI sP ix n) numCPU pol (slotCount adds) trees workers) (hn : 0 < n) {q : List N.V}
    (hq : Moderate val Fin lo hi n q) (hv : ∀ i v, lastAdded adds i = some v → Moderate val Fin lo hi n v) (hroots : s'.roots ≠ [])
    (h2 : 2 ≤ slotCount adds) (hck : (dotCfg N C R sI sP ix n).L.CountKept (slotCount adds))
    (hcp : (dotCfg N C R sI sP ix n).L.CopiesKept (slotCount adds)) {w0 w : World} {path : String} (hf : FileOf s' w path)
    (hfin : FiniteMargins s' w0 q) {bk : Backend} {x y : Idx (dotCfg N C R sI sP ix n)} (hl : x.load bk w path = .ok (.nil, y))
    {k b : Int} {fuel : Nat} {ctx ctx' : Ctx (dotCfg N C R sI sP ix n)} {ids : List Nat} {ds : List N.V}
    (hb : ((addedIds adds).length : Int) ≤ (if b = -1 then k * y.roots.length else b))
    (hr : y.getNnsByVector fuel w q k b ctx = .ok (ids, ds, ctx')) :
    AlmostTopDot N val Fin n u (trueDist val n (lastAdded adds) q) (addedIds adds) k.toNat ids ds :=
  A.topDot Z h.wf hq (fun _ hi => mem_addedIds.1 hi) (fun i _ => hv i)
    (h.C86_items_suffice_loaded h2 hroots hck hs hcp hk dot_minKeys hf hl ⟨hq.length, dot_marginOk hq.length hn⟩
      (h.finiteBelow_loaded h2 hroots hck hs hcp hf hl hfin) hb hr).1
end

theorem dotArith32 : DotArith ieee32 (bvCodec 4) val32 fin32 where
  over := zeroOver32
  blank := by
    show @Eq (BitVec 32) ((bvCodec 4).dec (List.replicate 4 0)) 0
    decide
  zero := by decide
  neg x hx := by
    have e : BitVec.toNat (w := 32) (ieee32.neg x) = f32.neg (BitVec.toNat (w := 32) x) := KeyBV.toNat_neg rfl x
    refine ⟨?_, ?_⟩
    · show f32.mag _ < _
      rw [e, Fmt.mag_neg]; exact hx
    · show f32.real _ = - f32.real _
      rw [e, Fmt.real_neg]

theorem dotArith64 : DotArith ieee64 (bvCodec 8) val64 fin64 where
  over := zeroOver64
  blank := by
    show @Eq (BitVec 64) ((bvCodec 8).dec (List.replicate 8 0)) 0
    decide
  zero := by decide
  neg x hx := by
    have e : BitVec.toNat (w := 64) (ieee64.neg x) = f64.neg (BitVec.toNat (w := 64) x) := KeyBV.toNat_neg rfl x
    refine ⟨?_, ?_⟩
    · show f64.mag _ < _
      rw [e, Fmt.mag_neg]; exact hx
    · show f64.real _ = - f64.real _
      rw [e, Fmt.real_neg]

section
variable {R : Rng} {sI : List Nat → List Nat} {sP : List (ieee32.V × Nat) → List (ieee32.V × Nat)} {ix n numCPU : Nat}
  {pol : BuildPolicy} {adds : List (Nat × List ieee32.V)} {trees workers : Int} {s s' : Idx (dotCfg ieee32 (bvCodec 4) R sI sP ix n)}

/-- **C99 for `float32`**: the margins of ordinary data at the inner nodes of a built dot product index are finite. -/
theorem C99_float32 (h : Session (dotCfg ieee32 (bvCodec 4) R sI sP ix n) numCPU pol adds trees workers s s')
    (hs : SplitsKept (dotCfg ieee32 (bvCodec 4) R sI sP ix n) numCPU pol (slotCount adds) trees workers) (h0 : 0 < n) (hn : n ≤ 2 ^ 17)
    (hitems : ∀ i v, lastAdded adds i = some v → ∀ x ∈ v, fin32 x ∧ |val32 x| ≤ 2 ^ 54) (w : World) {q : List ieee32.V} (hq : q.length = n)
    (hqs : ∀ x ∈ q, fin32 x ∧ |val32 x| ≤ 2 ^ 90) : FiniteMargins s' w q := by
  refine ieee32_steady.finiteMarginsDot canon32 zeroOver32 dotArith32.blank (by show f32.mag 0 < _; decide) cutTiny32 (room32 hn) (by norm_num) (Q := 2 ^ 90)
    (by positivity) ?_ h hs hitems w h0 hq hqs
  have h1 : (n : ℝ) ≤ 2 ^ 17 := by exact_mod_cast hn
  have h1' : (n : ℝ) ≤ 131072 := h1.trans (by norm_num)
  norm_num
  linarith

/-- The margins of moderate queries are finite. -/
theorem dotMargins32 (h : Session (dotCfg ieee32 (bvCodec 4) R sI sP ix n) numCPU pol adds trees workers s s')
    (hix : 3 * ix ≤ n) (hn : n ≤ 2 ^ 17) (hv : ∀ i v, lastAdded adds i = some v → Moderate32 n v) {q : List ieee32.V} (hq : Moderate32 n q)
    (w : World) : FiniteMargins s' w q := by
  have hpos : 0 < ix := h.wf.layout.szIX_pos
  exact C99_float32 h (splitsKept_of_length h.wf hix h.fits) (by omega) hn
    (fun i v hi => (hv i v hi).bound (pow_le_pow_right₀ (by norm_num) (by norm_num))) w hq.length
    (hq.bound (pow_le_pow_right₀ (by norm_num) (by norm_num)))

/-- **C100 for `float32`**: a built dot product index with at least `3 * sizeof(TIX)` and at most `2^17` components per vector, at least one tree, items and
query of moderate norm.  A search with a budget (`searchK`, or `numReturn * len(roots)` for -1) of at least the number of items returns the items whose
directions are nearest to the direction of the query, not those with the largest inner product, and reports `2 cos - 2`. -/
theorem C100_float32 (h : Session (dotCfg ieee32 (bvCodec 4) R sI sP ix n) numCPU pol adds trees workers s s')
    (hix : 3 * ix ≤ n) (hn : n ≤ 2 ^ 17) (hv : ∀ i v, lastAdded adds i = some v → Moderate32 n v) {q : List ieee32.V} (hq : Moderate32 n q)
    (hroots : s'.roots ≠ []) (w : World) {k b : Int} {fuel : Nat} {ctx ctx' : Ctx (dotCfg ieee32 (bvCodec 4) R sI sP ix n)} {ids : List Nat}
    {ds : List ieee32.V} (hb : ((addedIds adds).length : Int) ≤ (if b = -1 then k * s'.roots.length else b))
    (hr : s'.getNnsByVector fuel w q k b ctx = .ok (ids, ds, ctx')) :
    AlmostTopDot ieee32 val32 fin32 n (2 ^ (-24 : Int)) (trueDist val32 n (lastAdded adds) q) (addedIds adds) k.toNat ids ds :=
  (arith32 hn).items_suffice_dot dotArith32 ieee32_keyLaws h (splitsKept_of_length h.wf hix h.fits) w
    (by have hpos : 0 < ix := h.wf.layout.szIX_pos; omega) hq hv hroots (dotMargins32 h hix hn hv hq w) hb hr

/-- **C100 for `float32`, loaded indexes.** -/
theorem C100_loaded_float32 (h : Session (dotCfg ieee32 (bvCodec 4) R sI sP ix n) numCPU pol adds trees workers s s')
    (hix : 3 * ix ≤ n) (hn : n ≤ 2 ^ 17) (hv : ∀ i v, lastAdded adds i = some v → Moderate32 n v) {q : List ieee32.V} (hq : Moderate32 n q)
    (hroots : s'.roots ≠ []) (h2 : 2 ≤ slotCount adds)
    (hcp : (dotCfg ieee32 (bvCodec 4) R sI sP ix n).L.CopiesKept (slotCount adds)) {w : World} {path : String} (hf : FileOf s' w path)
    {bk : Backend} {x y : Idx (dotCfg ieee32 (bvCodec 4) R sI sP ix n)} (hl : x.load bk w path = .ok (.nil, y))
    {k b : Int} {fuel : Nat} {ctx ctx' : Ctx (dotCfg ieee32 (bvCodec 4) R sI sP ix n)} {ids : List Nat}
    {ds : List ieee32.V} (hb : ((addedIds adds).length : Int) ≤ (if b = -1 then k * y.roots.length else b))
    (hr : y.getNnsByVector fuel w q k b ctx = .ok (ids, ds, ctx')) :
    AlmostTopDot ieee32 val32 fin32 n (2 ^ (-24 : Int)) (trueDist val32 n (lastAdded adds) q) (addedIds adds) k.toNat ids ds :=
  (arith32 hn).items_suffice_dot_loaded dotArith32 ieee32_keyLaws h (splitsKept_of_length h.wf hix h.fits)
    (by have hpos : 0 < ix := h.wf.layout.szIX_pos; omega)
    hq hv hroots h2 (h.countKept (show ix ≤ n by omega)) hcp hf (dotMargins32 h hix hn hv hq w) hl hb hr

/-- **C100 for `float32`, contexts**: with at least three items such a search with a budget of the number of items is answered in a context of
`CreateContext`. -/
theorem C100_answered_float32 (h : Session (dotCfg ieee32 (bvCodec 4) R sI sP ix n) numCPU pol adds trees workers s s')
    (hix : 3 * ix ≤ n) (hn : n ≤ 2 ^ 17) (hv : ∀ i v, lastAdded adds i = some v → Moderate32 n v) {q : List ieee32.V} (hq : Moderate32 n q)
    (hroots : s'.roots ≠ []) (h3 : 3 ≤ (addedIds adds).length) (w : World) (k : Int) {fuel : Nat} (hf : 2 * (s'.nNodes - s'.nItems) < fuel)
    {ctx : Ctx (dotCfg ieee32 (bvCodec 4) R sI sP ix n)} (hctx : s'.createContext.nns.length ≤ ctx.nns.length) :
    ∃ ids ds ctx', s'.getNnsByVector fuel w q k (addedIds adds).length ctx = .ok (ids, ds, ctx') ∧
      AlmostTopDot ieee32 val32 fin32 n (2 ^ (-24 : Int)) (trueDist val32 n (lastAdded adds) q) (addedIds adds) k.toNat ids ds := by
  have hpos : 0 < ix := h.wf.layout.szIX_pos
  have hs := splitsKept_of_length h.wf hix h.fits
  have hne : ((addedIds adds).length : Int) ≠ -1 := by omega
  obtain ⟨⟨ids, ds, ctx'⟩, hr⟩ := h.C92_room hs ieee32_keyLaws dot_minKeys w ⟨hq.length, dot_marginOk hq.length (by omega)⟩
    (h.finiteBelow hs (dotMargins32 h hix hn hv hq w)) hroots (Or.inl h3) (k := k) (b := (addedIds adds).length) (by rw [if_neg hne]; exact le_refl _) hf hctx
  exact ⟨ids, ds, ctx', hr, C100_float32 h hix hn hv hq hroots w (by rw [if_neg hne]) hr⟩
end

section
variable {R : Rng} {sI : List Nat → List Nat} {sP : List (ieee64.V × Nat) → List (ieee64.V × Nat)} {ix n numCPU : Nat}
  {pol : BuildPolicy} {adds : List (Nat × List ieee64.V)} {trees workers : Int} {s s' : Idx (dotCfg ieee64 (bvCodec 8) R sI sP ix n)}

/-- **C99 for `float64`**: the margins of ordinary data at the inner nodes of a built dot product index are finite. -/
theorem C99_float64 (h : Session (dotCfg ieee64 (bvCodec 8) R sI sP ix n) numCPU pol adds trees workers s s')
    (hs : SplitsKept (dotCfg ieee64 (bvCodec 8) R sI sP ix n) numCPU pol (slotCount adds) trees workers) (h0 : 0 < n) (hn : n ≤ 2 ^ 46)
    (hitems : ∀ i v, lastAdded adds i = some v → ∀ x ∈ v, fin64 x ∧ |val64 x| ≤ 2 ^ 476) (w : World) {q : List ieee64.V} (hq : q.length = n)
    (hqs : ∀ x ∈ q, fin64 x ∧ |val64 x| ≤ 2 ^ 900) : FiniteMargins s' w q := by
  refine ieee64_steady.finiteMarginsDot canon64 zeroOver64 dotArith64.blank (by show f64.mag 0 < _; decide) cutTiny64 (room64 hn) (one_le_pow₀ (by norm_num)) (Q := 2 ^ 900)
    (by positivity) ?_ h hs hitems w h0 hq hqs
  have h1 : (n : ℝ) ≤ 2 ^ 46 := by exact_mod_cast hn
  have h2 : (n : ℝ) * (2 ^ 27 * 2 ^ 900) ≤ 2 ^ 46 * (2 ^ 27 * 2 ^ 900) := mul_le_mul_of_nonneg_right h1 (by positivity)
  have e : (2 : ℝ) ^ 46 * (2 ^ 27 * 2 ^ 900) = 2 ^ 973 := by rw [← pow_add, ← pow_add]
  have h3 : (2 : ℝ) ≤ 2 ^ 973 := le_self_pow₀ (by norm_num) (by norm_num)
  have h4 : (2 : ℝ) ^ 1000 = 2 ^ 27 * 2 ^ 973 := by rw [← pow_add]
  rw [e] at h2
  rw [h4]
  generalize (n : ℝ) * (2 ^ 27 * 2 ^ 900) = x at h2 ⊢
  generalize (2 : ℝ) ^ 973 = y at h2 h3 ⊢
  norm_num
  linarith

/-- The margins of moderate queries are finite. -/
theorem dotMargins64 (h : Session (dotCfg ieee64 (bvCodec 8) R sI sP ix n) numCPU pol adds trees workers s s')
    (hix : 3 * ix ≤ n) (hn : n ≤ 2 ^ 46) (hv : ∀ i v, lastAdded adds i = some v → Moderate64 n v) {q : List ieee64.V} (hq : Moderate64 n q)
    (w : World) : FiniteMargins s' w q := by
  have hpos : 0 < ix := h.wf.layout.szIX_pos
  exact C99_float64 h (splitsKept_of_length h.wf hix h.fits) (by omega) hn
    (fun i v hi => (hv i v hi).bound (pow_le_pow_right₀ (by norm_num) (by norm_num))) w hq.length
    (hq.bound (pow_le_pow_right₀ (by norm_num) (by norm_num)))

/-- **C100 for `float64`**: a built dot product index with at least `3 * sizeof(TIX)` and at most `2^46` components per vector, at least one tree, items and
query of moderate norm.  A search with a budget (`searchK`, or `numReturn * len(roots)` for -1) of at least the number of items returns the items whose
directions are nearest to the direction of the query, not those with the largest inner product, and reports `2 cos - 2`. -/
theorem C100_float64 (h : Session (dotCfg ieee64 (bvCodec 8) R sI sP ix n) numCPU pol adds trees workers s s')
    (hix : 3 * ix ≤ n) (hn : n ≤ 2 ^ 46) (hv : ∀ i v, lastAdded adds i = some v → Moderate64 n v) {q : List ieee64.V} (hq : Moderate64 n q)
    (hroots : s'.roots ≠ []) (w : World) {k b : Int} {fuel : Nat} {ctx ctx' : Ctx (dotCfg ieee64 (bvCodec 8) R sI sP ix n)} {ids : List Nat}
    {ds : List ieee64.V} (hb : ((addedIds adds).length : Int) ≤ (if b = -1 then k * s'.roots.length else b))
    (hr : s'.getNnsByVector fuel w q k b ctx = .ok (ids, ds, ctx')) :
    AlmostTopDot ieee64 val64 fin64 n (2 ^ (-53 : Int)) (trueDist val64 n (lastAdded adds) q) (addedIds adds) k.toNat ids ds :=
  (arith64 hn).items_suffice_dot dotArith64 ieee64_keyLaws h (splitsKept_of_length h.wf hix h.fits) w
    (by have hpos : 0 < ix := h.wf.layout.szIX_pos; omega) hq hv hroots (dotMargins64 h hix hn hv hq w) hb hr

/-- **C100 for `float64`, loaded indexes.** -/
theorem C100_loaded_float64 (h : Session (dotCfg ieee64 (bvCodec 8) R sI sP ix n) numCPU pol adds trees workers s s')
    (hix : 3 * ix ≤ n) (hn : n ≤ 2 ^ 46) (hv : ∀ i v, lastAdded adds i = some v → Moderate64 n v) {q : List ieee64.V} (hq : Moderate64 n q)
    (hroots : s'.roots ≠ []) (h2 : 2 ≤ slotCount adds)
    (hcp : (dotCfg ieee64 (bvCodec 8) R sI sP ix n).L.CopiesKept (slotCount adds)) {w : World} {path : String} (hf : FileOf s' w path)
    {bk : Backend} {x y : Idx (dotCfg ieee64 (bvCodec 8) R sI sP ix n)} (hl : x.load bk w path = .ok (.nil, y))
    {k b : Int} {fuel : Nat} {ctx ctx' : Ctx (dotCfg ieee64 (bvCodec 8) R sI sP ix n)} {ids : List Nat}
    {ds : List ieee64.V} (hb : ((addedIds adds).length : Int) ≤ (if b = -1 then k * y.roots.length else b))
    (hr : y.getNnsByVector fuel w q k b ctx = .ok (ids, ds, ctx')) :
    AlmostTopDot ieee64 val64 fin64 n (2 ^ (-53 : Int)) (trueDist val64 n (lastAdded adds) q) (addedIds adds) k.toNat ids ds :=
  (arith64 hn).items_suffice_dot_loaded dotArith64 ieee64_keyLaws h (splitsKept_of_length h.wf hix h.fits)
    (by have hpos : 0 < ix := h.wf.layout.szIX_pos; omega)
    hq hv hroots h2 (h.countKept (show ix ≤ n by omega)) hcp hf (dotMargins64 h hix hn hv hq w) hl hb hr

/-- **C100 for `float64`, contexts**: with at least three items such a search with a budget of the number of items is answered in a context of
`CreateContext`. -/
theorem C100_answered_float64 (h : Session (dotCfg ieee64 (bvCodec 8) R sI sP ix n) numCPU pol adds trees workers s s')
    (hix : 3 * ix ≤ n) (hn : n ≤ 2 ^ 46) (hv : ∀ i v, lastAdded adds i = some v → Moderate64 n v) {q : List ieee64.V} (hq : Moderate64 n q)
    (hroots : s'.roots ≠ []) (h3 : 3 ≤ (addedIds adds).length) (w : World) (k : Int) {fuel : Nat} (hf : 2 * (s'.nNodes - s'.nItems) < fuel)
    {ctx : Ctx (dotCfg ieee64 (bvCodec 8) R sI sP ix n)} (hctx : s'.createContext.nns.length ≤ ctx.nns.length) :
    ∃ ids ds ctx', s'.getNnsByVector fuel w q k (addedIds adds).length ctx = .ok (ids, ds, ctx') ∧
      AlmostTopDot ieee64 val64 fin64 n (2 ^ (-53 : Int)) (trueDist val64 n (lastAdded adds) q) (addedIds adds) k.toNat ids ds := by
  have hpos : 0 < ix := h.wf.layout.szIX_pos
  have hs := splitsKept_of_length h.wf hix h.fits
  have hne : ((addedIds adds).length : Int) ≠ -1 := by omega
  obtain ⟨⟨ids, ds, ctx'⟩, hr⟩ := h.C92_room hs ieee64_keyLaws dot_minKeys w ⟨hq.length, dot_marginOk hq.length (by omega)⟩
    (h.finiteBelow hs (dotMargins64 h hix hn hv hq w)) hroots (Or.inl h3) (k := k) (b := (addedIds adds).length) (by rw [if_neg hne]; exact le_refl _) hf hctx
  exact ⟨ids, ds, ctx', hr, C100_float64 h hix hn hv hq hroots w (by rw [if_neg hne]) hr⟩
end

/-- Twenty items, three trees by the default generator: an index of the repository meets the hypotheses of `C99_factor`, `C99_margin`, `C99_float32`
and `C100_answered_float32`. -/
example : ∃ s s', Session (dot32 4 12) 1 .single (longAdds 20) 3 1 s s' ∧ 3 * 4 ≤ 12 ∧ SplitsKept (dot32 4 12) 1 .single (slotCount (longAdds 20)) 3 1 ∧
    (∀ i v, lastAdded (longAdds 20) i = some v → Moderate32 12 v) ∧ Moderate32 12 query12 ∧ s'.roots ≠ [] ∧ 3 ≤ (addedIds (longAdds 20)).length := by
  obtain ⟨s, s', -, h, h1, -⟩ := C76_build (c := dot32 4 12) (.dot32 (by decide) (by decide)) 1 (longAdds 20) (legalAdds_of (by decide +kernel)) (Kiss32.new 0) 0 3 1
    (by decide +kernel)
  refine ⟨s, s', h, le_rfl, splitsKept_of_length h.wf (show 3 * 4 ≤ 12 by decide) h.fits, longAdds_moderate,
    moderate32_of_bits (by decide) (by decide) (by decide +kernel) ⟨0, by decide +kernel⟩, ?_, by decide +kernel⟩
  intro e
  have := h1 (by decide)
  rw [e] at this
  simp at this

/-! ## After any history of calls -/

section
variable {R : Rng} {sI : List Nat → List Nat} {sP : List (ieee32.V × Nat) → List (ieee32.V × Nat)} {ix n : Nat} {bk : Backend} {numCPU : Nat}
  {creatable : String → Bool}

/-- What an index of ordinary data that is the finished table `t` answers. -/
theorem StoreOf.dot32 {x : Env (dotCfg ieee32 (bvCodec 4) R sI sP ix n)} {st : Store ieee32.V}
    (h : StoreOf (dotCfg ieee32 (bvCodec 4) R sI sP ix n) bk numCPU creatable x st) (hix : 3 * ix ≤ n) (hn : n ≤ 2 ^ 17)
    {t : Table ieee32.V} {file : Bool} (ht : st.finished = some (t, file)) (htr : t.HasTrees)
    (hcp : file = true → (dotCfg ieee32 (bvCodec 4) R sI sP ix n).L.CopiesKept (slotCount t.adds))
    (hv : ∀ i v, lastAdded t.adds i = some v → Moderate32 n v) {q : List ieee32.V} (hq : Moderate32 n q) (k : Int) :
    (∀ {b : Int} {fuel : Nat} {ctx ctx' : Ctx (dotCfg ieee32 (bvCodec 4) R sI sP ix n)} {ids : List Nat} {ds : List ieee32.V},
      ((addedIds t.adds).length : Int) ≤ b → x.idx.getNnsByVector fuel x.world q k b ctx = .ok (ids, ds, ctx') →
      AlmostTopDot ieee32 val32 fin32 n (2 ^ (-24 : Int)) (trueDist val32 n (lastAdded t.adds) q) (addedIds t.adds) k.toNat ids ds) ∧
    (3 ≤ (addedIds t.adds).length → ∀ ctx : Ctx (dotCfg ieee32 (bvCodec 4) R sI sP ix n),
      x.idx.createContext.nns.length ≤ ctx.nns.length →
      ∃ fuel ids ds ctx', x.idx.getNnsByVector fuel x.world q k (addedIds t.adds).length ctx = .ok (ids, ds, ctx')) := by
  have hp := h.phase
  unfold Store.finished at ht
  have hne : ∀ {b : Int}, ((addedIds t.adds).length : Int) ≤ b → b ≠ -1 := fun hb => by omega
  cases hst : st.phase with
  | adding adds => rw [hst] at ht; cases ht
  | unknown => rw [hst] at ht; cases ht
  | built t' =>
    rw [hst] at hp ht
    cases ht
    obtain ⟨s, hs⟩ := id hp
    have hroots := Makes.hasTrees hp htr
    have hpos : 0 < ix := hs.wf.layout.szIX_pos
    have hsk := splitsKept_of_length hs.wf hix hs.fits
    refine ⟨fun hb hr => C100_float32 hs hix hn hv hq hroots _ (by rw [if_neg (hne hb)]; exact hb) hr, fun h3 ctx hctx => ?_⟩
    obtain ⟨⟨ids, ds, o⟩, hx⟩ := hs.C92_room hsk ieee32_keyLaws dot_minKeys x.world ⟨hq.length, dot_marginOk hq.length (by omega)⟩
      (hs.finiteBelow hsk (dotMargins32 hs hix hn hv hq x.world)) hroots (Or.inl h3) (k := k) (b := (addedIds t.adds).length)
      (by rw [if_neg (hne le_rfl)]; exact le_rfl) (Nat.lt_succ_self _) hctx
    exact ⟨_, _, _, _, hx⟩
  | loaded t' path =>
    rw [hst] at hp ht
    cases ht
    obtain ⟨hf, u, hl⟩ := hp
    obtain ⟨s0, s', N0, hs, hroots, hfile, B, b1, L⟩ := hf.loaded hl
    obtain ⟨h2, -, hk⟩ := hf.readable
    have hpos : 0 < ix := hs.wf.layout.szIX_pos
    have hsk := splitsKept_of_length hs.wf hix hs.fits
    refine ⟨fun hb hr => C100_loaded_float32 hs hix hn hv hq hroots h2 (hcp rfl) hfile hl (by rw [if_neg (hne hb)]; exact hb) hr, fun h3 ctx hctx => ?_⟩
    obtain ⟨F, hF⟩ := hs.C92_room_loaded h2 hroots hk hsk (hcp rfl) ieee32_keyLaws dot_minKeys hfile hl (Or.inl h3)
    obtain ⟨⟨ids, ds, o⟩, hx⟩ := hF ⟨hq.length, dot_marginOk hq.length (by omega)⟩
      (hs.finiteBelow_loaded h2 hroots hk hsk (hcp rfl) hfile hl (dotMargins32 hs hix hn hv hq x.world)) (k := k) (b := (addedIds t.adds).length)
      (by rw [if_neg (hne le_rfl)]; exact le_rfl) le_rfl hctx
    exact ⟨_, _, _, _, hx⟩

/-- **C100 for `float32`.**  Whatever calls a program has made on a new dot product index (at least `3 * sizeof(TIX)` and at most `2^17` components): when
the table holds a finished index of items of moderate norm, with a tree, then every search for a vector of moderate norm with a budget of at least
the number of items returns the items of the nearest directions, up to rounding, and if there are three items such a search with a budget of the number of
items is answered in every context that `CreateContext` gives. -/
theorem C100_history_float32 (hc : (dotCfg ieee32 (bvCodec 4) R sI sP ix n).WF) (hix : 3 * ix ≤ n) (hn : n ≤ 2 ^ 17)
    {w : World} (hw : w.Tidy) (r : R.σ) (hint : Nat)
    {h : List (Req (dotCfg ieee32 (bvCodec 4) R sI sP ix n) × Resp (dotCfg ieee32 (bvCodec 4) R sI sP ix n))}
    {y : Env (dotCfg ieee32 (bvCodec 4) R sI sP ix n)}
    (hs : ServesAll bk numCPU h ⟨w, Idx.new (dotCfg ieee32 (bvCodec 4) R sI sP ix n) r hint⟩ y)
    {t : Table ieee32.V} {file : Bool}
    (ht : ((Store.fresh ieee32.V).afterAll (dotCfg ieee32 (bvCodec 4) R sI sP ix n) bk numCPU w.creatable h).finished = some (t, file))
    (htr : t.HasTrees) (hcp : file = true → (dotCfg ieee32 (bvCodec 4) R sI sP ix n).L.CopiesKept (slotCount t.adds))
    (hv : ∀ i v, lastAdded t.adds i = some v → Moderate32 n v) {q : List ieee32.V} (hq : Moderate32 n q) (k : Int) :
    (∀ {b : Int} {ctx ctx' : Ctx (dotCfg ieee32 (bvCodec 4) R sI sP ix n)} {ids : List Nat} {ds : List ieee32.V}
      {z : Env (dotCfg ieee32 (bvCodec 4) R sI sP ix n)}, ((addedIds t.adds).length : Int) ≤ b →
      Serves bk numCPU (.byVector q k b ctx) y (.found ids ds ctx') z →
      AlmostTopDot ieee32 val32 fin32 n (2 ^ (-24 : Int)) (trueDist val32 n (lastAdded t.adds) q) (addedIds t.adds) k.toNat ids ds) ∧
    (3 ≤ (addedIds t.adds).length → ∀ {ctx : Ctx (dotCfg ieee32 (bvCodec 4) R sI sP ix n)}
      {z : Env (dotCfg ieee32 (bvCodec 4) R sI sP ix n)}, Serves bk numCPU .createContext y (.context ctx) z →
      ∃ ids ds ctx', Serves bk numCPU (.byVector q k (addedIds t.adds).length ctx) z (.found ids ds ctx') z) := by
  have hpos : 0 < ix := hc.layout.szIX_pos
  have hg : ∀ q : List ieee32.V, q.length = n → GoodQuery (dotCfg ieee32 (bvCodec 4) R sI sP ix n) q :=
    fun q hq => ⟨hq, dot_marginOk hq (by omega)⟩
  obtain ⟨h1, h2⟩ := (StoreOf.all hc ieee32_lawful hg hs (StoreOf.new hc hw r hint)).2.dot32 hix hn ht htr hcp hv hq k
  refine ⟨fun hb hr => ?_, fun h3 {ctx z} hctx => ?_⟩
  · cases hr with
    | byVector fuel hx => exact h1 hb hx
  · cases hctx with
    | createContext =>
      obtain ⟨fuel, ids, ds, o, hx⟩ := h2 h3 _ le_rfl
      exact ⟨ids, ds, o, .byVector fuel hx⟩
end

section
variable {R : Rng} {sI : List Nat → List Nat} {sP : List (ieee64.V × Nat) → List (ieee64.V × Nat)} {ix n : Nat} {bk : Backend} {numCPU : Nat}
  {creatable : String → Bool}

/-- What an index of ordinary data that is the finished table `t` answers. -/
theorem StoreOf.dot64 {x : Env (dotCfg ieee64 (bvCodec 8) R sI sP ix n)} {st : Store ieee64.V}
    (h : StoreOf (dotCfg ieee64 (bvCodec 8) R sI sP ix n) bk numCPU creatable x st) (hix : 3 * ix ≤ n) (hn : n ≤ 2 ^ 46)
    {t : Table ieee64.V} {file : Bool} (ht : st.finished = some (t, file)) (htr : t.HasTrees)
    (hcp : file = true → (dotCfg ieee64 (bvCodec 8) R sI sP ix n).L.CopiesKept (slotCount t.adds))
    (hv : ∀ i v, lastAdded t.adds i = some v → Moderate64 n v) {q : List ieee64.V} (hq : Moderate64 n q) (k : Int) :
    (∀ {b : Int} {fuel : Nat} {ctx ctx' : Ctx (dotCfg ieee64 (bvCodec 8) R sI sP ix n)} {ids : List Nat} {ds : List ieee64.V},
      ((addedIds t.adds).length : Int) ≤ b → x.idx.getNnsByVector fuel x.world q k b ctx = .ok (ids, ds, ctx') →
      AlmostTopDot ieee64 val64 fin64 n (2 ^ (-53 : Int)) (trueDist val64 n (lastAdded t.adds) q) (addedIds t.adds) k.toNat ids ds) ∧
    (3 ≤ (addedIds t.adds).length → ∀ ctx : Ctx (dotCfg ieee64 (bvCodec 8) R sI sP ix n),
      x.idx.createContext.nns.length ≤ ctx.nns.length →
      ∃ fuel ids ds ctx', x.idx.getNnsByVector fuel x.world q k (addedIds t.adds).length ctx = .ok (ids, ds, ctx')) := by
  have hp := h.phase
  unfold Store.finished at ht
  have hne : ∀ {b : Int}, ((addedIds t.adds).length : Int) ≤ b → b ≠ -1 := fun hb => by omega
  cases hst : st.phase with
  | adding adds => rw [hst] at ht; cases ht
  | unknown => rw [hst] at ht; cases ht
  | built t' =>
    rw [hst] at hp ht
    cases ht
    obtain ⟨s, hs⟩ := id hp
    have hroots := Makes.hasTrees hp htr
    have hpos : 0 < ix := hs.wf.layout.szIX_pos
    have hsk := splitsKept_of_length hs.wf hix hs.fits
    refine ⟨fun hb hr => C100_float64 hs hix hn hv hq hroots _ (by rw [if_neg (hne hb)]; exact hb) hr, fun h3 ctx hctx => ?_⟩
    obtain ⟨⟨ids, ds, o⟩, hx⟩ := hs.C92_room hsk ieee64_keyLaws dot_minKeys x.world ⟨hq.length, dot_marginOk hq.length (by omega)⟩
      (hs.finiteBelow hsk (dotMargins64 hs hix hn hv hq x.world)) hroots (Or.inl h3) (k := k) (b := (addedIds t.adds).length)
      (by rw [if_neg (hne le_rfl)]; exact le_rfl) (Nat.lt_succ_self _) hctx
    exact ⟨_, _, _, _, hx⟩
  | loaded t' path =>
    rw [hst] at hp ht
    cases ht
    obtain ⟨hf, u, hl⟩ := hp
    obtain ⟨s0, s', N0, hs, hroots, hfile, B, b1, L⟩ := hf.loaded hl
    obtain ⟨h2, -, hk⟩ := hf.readable
    have hpos : 0 < ix := hs.wf.layout.szIX_pos
    have hsk := splitsKept_of_length hs.wf hix hs.fits
    refine ⟨fun hb hr => C100_loaded_float64 hs hix hn hv hq hroots h2 (hcp rfl) hfile hl (by rw [if_neg (hne hb)]; exact hb) hr, fun h3 ctx hctx => ?_⟩
    obtain ⟨F, hF⟩ := hs.C92_room_loaded h2 hroots hk hsk (hcp rfl) ieee64_keyLaws dot_minKeys hfile hl (Or.inl h3)
    obtain ⟨⟨ids, ds, o⟩, hx⟩ := hF ⟨hq.length, dot_marginOk hq.length (by omega)⟩
      (hs.finiteBelow_loaded h2 hroots hk hsk (hcp rfl) hfile hl (dotMargins64 hs hix hn hv hq x.world)) (k := k) (b := (addedIds t.adds).length)
      (by rw [if_neg (hne le_rfl)]; exact le_rfl) le_rfl hctx
    exact ⟨_, _, _, _, hx⟩

/-- **C100 for `float64`.**  Whatever calls a program has made on a new dot product index (at least `3 * sizeof(TIX)` and at most `2^46` components): when
the table holds a finished index of items of moderate norm, with a tree, then every search for a vector of moderate norm with a budget of at least
the number of items returns the items of the nearest directions, up to rounding, and if there are three items such a search with a budget of the number of
items is answered in every context that `CreateContext` gives. -/
theorem C100_history_float64 (hc : (dotCfg ieee64 (bvCodec 8) R sI sP ix n).WF) (hix : 3 * ix ≤ n) (hn : n ≤ 2 ^ 46)
    {w : World} (hw : w.Tidy) (r : R.σ) (hint : Nat)
    {h : List (Req (dotCfg ieee64 (bvCodec 8) R sI sP ix n) × Resp (dotCfg ieee64 (bvCodec 8) R sI sP ix n))}
    {y : Env (dotCfg ieee64 (bvCodec 8) R sI sP ix n)}
    (hs : ServesAll bk numCPU h ⟨w, Idx.new (dotCfg ieee64 (bvCodec 8) R sI sP ix n) r hint⟩ y)
    {t : Table ieee64.V} {file : Bool}
    (ht : ((Store.fresh ieee64.V).afterAll (dotCfg ieee64 (bvCodec 8) R sI sP ix n) bk numCPU w.creatable h).finished = some (t, file))
    (htr : t.HasTrees) (hcp : file = true → (dotCfg ieee64 (bvCodec 8) R sI sP ix n).L.CopiesKept (slotCount t.adds))
    (hv : ∀ i v, lastAdded t.adds i = some v → Moderate64 n v) {q : List ieee64.V} (hq : Moderate64 n q) (k : Int) :
    (∀ {b : Int} {ctx ctx' : Ctx (dotCfg ieee64 (bvCodec 8) R sI sP ix n)} {ids : List Nat} {ds : List ieee64.V}
      {z : Env (dotCfg ieee64 (bvCodec 8) R sI sP ix n)}, ((addedIds t.adds).length : Int) ≤ b →
      Serves bk numCPU (.byVector q k b ctx) y (.found ids ds ctx') z →
      AlmostTopDot ieee64 val64 fin64 n (2 ^ (-53 : Int)) (trueDist val64 n (lastAdded t.adds) q) (addedIds t.adds) k.toNat ids ds) ∧
    (3 ≤ (addedIds t.adds).length → ∀ {ctx : Ctx (dotCfg ieee64 (bvCodec 8) R sI sP ix n)}
      {z : Env (dotCfg ieee64 (bvCodec 8) R sI sP ix n)}, Serves bk numCPU .createContext y (.context ctx) z →
      ∃ ids ds ctx', Serves bk numCPU (.byVector q k (addedIds t.adds).length ctx) z (.found ids ds ctx') z) := by
  have hpos : 0 < ix := hc.layout.szIX_pos
  have hg : ∀ q : List ieee64.V, q.length = n → GoodQuery (dotCfg ieee64 (bvCodec 8) R sI sP ix n) q :=
    fun q hq => ⟨hq, dot_marginOk hq (by omega)⟩
  obtain ⟨h1, h2⟩ := (StoreOf.all hc ieee64_lawful hg hs (StoreOf.new hc hw r hint)).2.dot64 hix hn ht htr hcp hv hq k
  refine ⟨fun hb hr => ?_, fun h3 {ctx z} hctx => ?_⟩
  · cases hr with
    | byVector fuel hx => exact h1 hb hx
  · cases hctx with
    | createContext =>
      obtain ⟨fuel, ids, ds, o, hx⟩ := h2 h3 _ le_rfl
      exact ⟨ids, ds, o, .byVector fuel hx⟩
end

/-- The history of twenty items, three trees by two workers and a saved file exists on a dot product index of the repository too. -/
example : (oneFile "a" [1]).Tidy ∧ 3 * 4 ≤ 12 ∧ Moderate32 12 query12 ∧ (∀ i v, lastAdded (longAdds 20) i = some v → Moderate32 12 v) ∧
    (dot32 4 12).L.CopiesKept (slotCount (longAdds 20)) ∧ 3 ≤ (addedIds (longAdds 20)).length ∧
    ∃ h y, ServesAll .mmap 4 h ⟨oneFile "a" [1], Idx.new (dot32 4 12) (Kiss32.new 0) 0⟩ y ∧
      ((Store.fresh ieee32.V).afterAll (dot32 4 12) .mmap 4 (oneFile "a" [1]).creatable h).finished = some (⟨longAdds 20, 3, 2, .multi⟩, true) := by
  refine ⟨oneFile_tidy _ _, le_rfl, moderate32_of_bits (by decide) (by decide) (by decide +kernel) ⟨0, by decide +kernel⟩, longAdds_moderate,
    Or.inl (by decide +kernel), by decide +kernel, _,
    build_save_history (.dot32 (by decide) (by decide)) (oneFile_tidy _ _) _ (legalAdds_of (by decide +kernel)) (fun _ => by decide) (by decide +kernel)
      ⟨by decide +kernel, ⟨Or.inl (by decide), (fun _ => by decide)⟩, by unfold Layout.CountKept; decide +kernel⟩ (path := "b") rfl⟩

/-! ## Largest inner products -/

/-- **C101**, for items that are equally long: ranking by the angle is ranking by the inner product.  An item that is not returned has no larger inner product
with the query than a returned one, up to rounding.  (Missing: items of different lengths, where the claim is false, see `C101_refuted`.) -/
theorem C101_equal_norms_partial {N : Num} {val : N.V → ℝ} {Fin : N.V → Prop} {n : Nat} {u r : ℝ} {m : Nat → Option (List N.V)} {q : List N.V} {S ids : List Nat}
    {ds : List N.V} {k : Nat} (T : AlmostTopDot N val Fin n u (trueDist val n m q) S k ids ds) (hq : q.length = n) (hq0 : 0 < ‖pt n (q.map val)‖) (hr : 0 < r)
    (hS : ∀ i ∈ S, ∃ v, m i = some v ∧ v.length = n ∧ ‖pt n (v.map val)‖ = r) {i j : Nat} (hi : i ∈ ids) (hj : j ∈ S) (hij : j ∉ ids) {v x : List N.V}
    (hv : m i = some v) (hx : m j = some x) :
    dotR (q.map val) (x.map val) ≤ dotR (q.map val) (v.map val) + ‖pt n (q.map val)‖ * r * sqErr n u := by
  have key : ∀ l ∈ S, ∀ y, m l = some y →
      trueDist val n m q l ^ 2 * (‖pt n (q.map val)‖ * r) = 2 * (‖pt n (q.map val)‖ * r) - 2 * dotR (q.map val) (y.map val) := by
    intro l hl y hy
    obtain ⟨y', e, hy1, hy2⟩ := hS l hl
    obtain rfl : y' = y := by rw [e] at hy; exact Option.some.inj hy
    have hq' : (q.map val).length = n := by rw [List.length_map]; exact hq
    have hy' : (y'.map val).length = n := by rw [List.length_map]; exact hy1
    have e2 : trueDist val n m q l = chord n (q.map val) (y'.map val) := by unfold trueDist; rw [e]; rfl
    rw [e2, ← chord_sq hq' hy' hq0 (by rw [hy2]; exact hr), dotR_eq (q.map val) (q.map val), dotR_eq (y'.map val) (y'.map val), dot_self hq', dot_self hy', hy2,
      ← mul_pow, Real.sqrt_sq (by positivity)]
    field_simp
  have h := T.least i hi j hj hij
  have hpos : 0 < ‖pt n (q.map val)‖ * r := by positivity
  have h1 := mul_le_mul_of_nonneg_right h hpos.le
  rw [add_mul, key i (T.sub i hi) v hv, key j hj x hx] at h1
  linarith

/-- Equally long items: `(1, 0, …)` and `(0, 1, 0, …)`. -/
def twoUnits : List (Nat × List ieee32.V) :=
  [(0, x32 0x3F800000 :: x32 0 :: List.replicate 10 (x32 0)), (1, x32 0 :: x32 0x3F800000 :: List.replicate 10 (x32 0))]

example : ∃ r : ℝ, 0 < r ∧ (∀ i ∈ addedIds twoUnits, ∃ v, lastAdded twoUnits i = some v ∧ v.length = 12 ∧ ‖pt 12 (v.map val32)‖ = r) ∧
    0 < ‖pt 12 (query12.map val32)‖ := by
  have m0 : Moderate32 12 (x32 0x3F800000 :: x32 0 :: List.replicate 10 (x32 0)) := moderate32_of_bits (by decide) (by decide) (by decide +kernel) ⟨0, by decide +kernel⟩
  have mq : Moderate32 12 query12 := moderate32_of_bits (by decide) (by decide) (by decide +kernel) ⟨0, by decide +kernel⟩
  have hp : (0 : ℝ) < 2 ^ (-31 : Int) := by positivity
  refine ⟨_, lt_of_lt_of_le hp m0.lower, ?_, lt_of_lt_of_le hp mq.lower⟩
  intro i hi
  have hids : addedIds twoUnits = [0, 1] := by decide +kernel
  rw [hids] at hi
  simp only [List.mem_cons, List.not_mem_nil, or_false] at hi
  rcases hi with rfl | rfl
  · exact ⟨_, rfl, rfl, rfl⟩
  · refine ⟨_, rfl, rfl, ?_⟩
    rw [← Real.sqrt_sq (norm_nonneg (pt 12 _)), ← dot_self (by rfl), ← dotR_eq]
    conv_rhs => rw [← Real.sqrt_sq (norm_nonneg (pt 12 _)), ← dot_self (by rfl), ← dotR_eq]
    congr 1
    simp [dotR]
    ring

/-- Two items: `(1, 0, …)` and the longer `(10, 10, 0, …)`. -/
def shortLong : List (Nat × List ieee32.V) :=
  [(0, x32 0x3F800000 :: List.replicate 11 (x32 0)), (1, x32 0x41200000 :: x32 0x41200000 :: List.replicate 10 (x32 0))]

theorem TopK.first {N : Num} {norm : N.V → N.V} {δ : Nat → N.V} {S ids : List Nat} {ds : List N.V} {x y : N.V} (T : TopK N norm δ S 1 ids ds)
    (hS : S = [0, 1]) (h0 : δ 0 = x) (h1 : δ 1 = y) (hlt : N.lt x y = true) (hgt : N.lt y x = false) (hx : N.Ordinary x) (hy : N.Ordinary y)
    (he : N.eq y x = false) : ids = [0] := by
  subst hS h0 h1
  have hlen : ids.length = 1 := T.length
  obtain ⟨i, rfl⟩ := List.length_eq_one_iff.1 hlen
  have hi := T.sub i (List.mem_singleton.2 rfl)
  simp only [List.mem_cons, List.not_mem_nil, or_false] at hi
  rcases hi with rfl | rfl
  · rfl
  · exfalso
    rcases T.least (by simp [hx, hy]) 1 (List.mem_singleton.2 rfl) 0 (by simp) (by simp) with h | ⟨h, -⟩
    · rw [hgt] at h; cases h
    · rw [he] at h; cases h

theorem shortLong_moderate : ∀ i v, lastAdded shortLong i = some v → Moderate32 12 v := by
  intro i v h
  have hi : i < 2 := lastAdded_lt shortLong i (by rw [h]; rfl) |>.trans_le (by decide +kernel)
  match i, hi with
  | 0, _ =>
    obtain rfl := Option.some.inj h
    exact moderate32_of_bits (by decide) (by decide) (by decide +kernel) ⟨0, by decide +kernel⟩
  | 1, _ =>
    obtain rfl := Option.some.inj h
    exact moderate32_of_bits (by decide) (by decide) (by decide +kernel) ⟨0, by decide +kernel⟩

/-- **C101 is false**: asked for the one best item for the query `(1, 0, …)`, every `float32` dot product index with the items `(1, 0, …)` and
`(10, 10, 0, …)`, whatever the generator, trees and workers, returns the first, whose inner product with the query is 1; that of the second is 10. -/
theorem C101_refuted {R : Rng} {sI : List Nat → List Nat} {sP : List (ieee32.V × Nat) → List (ieee32.V × Nat)} {numCPU : Nat}
    {pol : BuildPolicy} {trees workers : Int} {s s' : Idx (dotCfg ieee32 (bvCodec 4) R sI sP 4 12)}
    (h : Session (dotCfg ieee32 (bvCodec 4) R sI sP 4 12) numCPU pol shortLong trees workers s s') (hroots : s'.roots ≠ []) (w : World) {b : Int} (hb : 2 ≤ b)
    {fuel : Nat} {ctx ctx' : Ctx (dotCfg ieee32 (bvCodec 4) R sI sP 4 12)} {ids : List Nat} {ds : List ieee32.V}
    (hr : s'.getNnsByVector fuel w (x32 0x3F800000 :: List.replicate 11 (x32 0)) 1 b ctx = .ok (ids, ds, ctx')) :
    ids = [0] ∧ ∃ v x, lastAdded shortLong 0 = some v ∧ lastAdded shortLong 1 = some x ∧
      Vec.dot ieee32 (x32 0x3F800000 :: List.replicate 11 (x32 0)) v = x32 0x3F800000 ∧
      Vec.dot ieee32 (x32 0x3F800000 :: List.replicate 11 (x32 0)) x = x32 0x41200000 := by
  refine ⟨?_, _, _, rfl, rfl, by decide +kernel, by decide +kernel⟩
  have hq : Moderate32 12 (x32 0x3F800000 :: List.replicate 11 (x32 0)) := moderate32_of_bits (by decide) (by decide) (by decide +kernel) ⟨0, by decide +kernel⟩
  have hv := shortLong_moderate
  have hs := splitsKept_of_length h.wf (show 3 * 4 ≤ 12 by decide) h.fits
  have hids : addedIds shortLong = [0, 1] := by decide +kernel
  have hlen : ((addedIds shortLong).length : Int) ≤ if b = -1 then (1 : Int) * s'.roots.length else b := by
    rw [if_neg (by omega), hids]
    exact hb
  obtain ⟨T, -⟩ := h.C86_items_suffice hs ieee32_keyLaws dot_minKeys w ⟨hq.length, dot_marginOk hq.length (by decide)⟩
    (h.finiteBelow hs (dotMargins32 h (by decide) (by decide) hv hq w)) hroots (k := 1) (b := b) hlen hr
  have hz : ieee32.eq ((bvCodec 4).dec (List.replicate 4 0)) ieee32.zero = true := bvCodec4_zero
  exact T.first hids
    ((vecDist_dot ieee32_mulLaws hz h.wf hq.length (hv 0 _ rfl).length).trans (by decide +kernel : _ = x32 0))
    ((vecDist_dot ieee32_mulLaws hz h.wf hq.length (hv 1 _ rfl).length).trans (by decide +kernel : _ = x32 0x3F15F61A))
    (show ieee32.lt _ _ = true by decide) (show ieee32.lt _ _ = false by decide) (show ieee32.eq _ _ = true by decide) (show ieee32.eq _ _ = true by decide)
    (show ieee32.eq _ _ = false by decide)

/-- There are such searches, on the index of the repository with the default generator. -/
example (w : World) : ∃ s s', Session (dot32 4 12) 1 .single shortLong 2 1 s s' ∧ s'.roots ≠ [] ∧ ∃ fuel ctx r,
    s'.getNnsByVector fuel w (x32 0x3F800000 :: List.replicate 11 (x32 0)) 1 2 ctx = .ok r := by
  obtain ⟨s, s', -, h, h1, -⟩ := C76_build (c := dot32 4 12) (.dot32 (by decide) (by decide)) 1 shortLong (legalAdds_of (by decide +kernel)) (Kiss32.new 0) 0 2 1
    (by decide +kernel)
  have hroots : s'.roots ≠ [] := by
    intro e
    have := h1 (by decide)
    rw [e] at this
    simp at this
  have hq : Moderate32 12 (x32 0x3F800000 :: List.replicate 11 (x32 0)) := moderate32_of_bits (by decide) (by decide) (by decide +kernel) ⟨0, by decide +kernel⟩
  have hs := splitsKept_of_length h.wf (show 3 * 4 ≤ 12 by decide) h.fits
  exact ⟨s, s', h, hroots, _, ⟨List.replicate (s'.roots.length * slotCount shortLong) default, []⟩,
    (C20_bound_partial h hs ieee32_lawful w ⟨hq.length, dot_marginOk hq.length (by decide)⟩ 1 2 _ (Nat.lt_succ_self _)).2
      (by rw [List.length_replicate]; exact le_refl _)⟩

end Annoy
