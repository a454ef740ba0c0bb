import Verif.Proof.SearchAlike
import Verif.Proof.Steady
import Verif.Proof.Term
/-!
# Splits of short vectors do not see the data

`TwoMeans` starts from `CopyNode(p, nodes[i], vectorLength)`: `vectorLength` bytes of a node, not the node.  If these bytes
end before the vector, both start points are the zero vector, no step changes them, the hyperplane is zero, and every
item is sent to a random side.
-/
namespace Annoy

/-- Arithmetic with zero. -/
structure Num.ZeroLaws (N : Num) : Prop where
  add : N.add N.zero N.zero = N.zero
  sub : N.sub N.zero N.zero = N.zero
  mul : N.mul N.zero N.zero = N.zero
  sqrt : N.sqrt N.zero = N.zero
  eq : N.eq N.zero N.zero = true
  lt : N.lt N.zero N.zero = false
  ltW : ∀ x, N.ltW x x = false

theorem ieee32_zeroLaws : ieee32.ZeroLaws where
  add := by decide +kernel
  sub := by decide +kernel
  mul := by decide +kernel
  sqrt := by decide +kernel
  eq := by decide +kernel
  lt := by decide +kernel
  ltW := ieee64_lawful.lt_irrefl

theorem ieee64_zeroLaws : ieee64.ZeroLaws where
  add := by decide +kernel
  sub := by decide +kernel
  mul := by decide +kernel
  sqrt := by decide +kernel
  eq := by decide +kernel
  lt := by decide +kernel
  ltW := ieee64_lawful.lt_irrefl

section
variable {N : Num} {L : Layout} {C : Codec N.V} {R : Rng}

/-- The zero vector. -/
def zeroVec (N : Num) (f : Nat) : List N.V := List.replicate f N.zero

theorem Num.ZeroLaws.dot (Z : N.ZeroLaws) (a b : Nat) : Vec.dot N (zeroVec N a) (zeroVec N b) = N.zero := by
  unfold Vec.dot zeroVec
  induction a generalizing b with
  | zero => rfl
  | succ a ih =>
    cases b with
    | zero => rfl
    | succ b =>
      rw [List.replicate_succ, List.replicate_succ]
      unfold Vec.dotFrom
      rw [Z.mul, Z.add]
      exact ih b

theorem Num.ZeroLaws.norm (Z : N.ZeroLaws) (a : Nat) : Vec.getNorm N (zeroVec N a) = N.zero := by
  unfold Vec.getNorm
  rw [Z.dot, Z.sqrt]

theorem Num.ZeroLaws.normalize (Z : N.ZeroLaws) (a : Nat) : Vec.normalize N (zeroVec N a) = zeroVec N a := by
  unfold Vec.normalize
  dsimp only
  rw [Z.norm, Z.lt]
  rfl

theorem Num.ZeroLaws.subs (Z : N.ZeroLaws) (a : Nat) : List.zipWith N.sub (zeroVec N a) (zeroVec N a) = zeroVec N a := by
  unfold zeroVec
  rw [List.zipWith_replicate, Z.sub, Nat.min_self]

/-- The distance of everything to the zero vector. -/
theorem Num.ZeroLaws.distance (Z : N.ZeroLaws) (a : Nat) (qq : N.V) (y : List N.V) :
    Vec.cosDistance N N.zero qq (zeroVec N a) y = N.two := by
  unfold Vec.cosDistance
  simp only [Z.eq, Z.dot, if_true, Z.lt, Bool.false_eq_true, if_false]

/-- The draws of `TwoMeans`, nothing else. -/
def drawStep (R : Rng) (n : Nat) (r : R.σ) : Except Err R.σ := do
  let (k, r) ← R.nextIndex r n
  if k < n then .ok r else .error (.panic "index out of range")

def drawMeans (R : Rng) (n : Nat) (r : R.σ) : Except Err R.σ := do
  let (i, j, r) ← twoMeansPick (R := R) n r
  if i < n ∧ j < n then iterM (drawStep R n) 200 r else .error (.panic "index out of range")

/-- A start point without information. -/
structure NullPoint (L : Layout) (C : Codec N.V) (p : Bytes) : Prop where
  vec : Node.vec L C p 0 = zeroVec N L.f
  norm : Node.norm L C p 0 = N.zero

theorem NullPoint.distance (Z : N.ZeroLaws) {p : Bytes} (h : NullPoint L C p) (mem : Bytes) (a : Nat) :
    Angular.distance (L := L) C p 0 mem a = N.two := by
  unfold Angular.distance
  rw [h.vec, h.norm, Z.distance]

theorem twoMeansStep_null (Z : N.ZeroLaws) {mem : Bytes} {addrs : List Nat} {init : Bytes → Nat → Bytes} {p q : Bytes}
    (hp : NullPoint L C p) (hq : NullPoint L C q) (r : R.σ) :
    twoMeansStep (L := L) C mem addrs true (Angular.distance (L := L) C) init (p, q, N.oneW, N.oneW, r) =
      (drawStep R addrs.length r).map fun r' => (p, q, N.oneW, N.oneW, r') := by
  unfold twoMeansStep drawStep
  cases h : R.nextIndex r addrs.length with
  | error e => simp only [bind, Except.bind, h, Except.map]
  | ok x =>
    obtain ⟨k, r'⟩ := x
    simp only [bind, Except.bind, h]
    by_cases hk : k < addrs.length
    · rw [List.getElem?_eq_getElem hk, if_pos hk]
      dsimp only
      rw [hp.distance Z, hq.distance Z, Z.ltW]
      simp [Except.map]
    · rw [List.getElem?_eq_none (by omega), if_neg hk]
      rfl

theorem iter_null (Z : N.ZeroLaws) {mem : Bytes} {addrs : List Nat} {init : Bytes → Nat → Bytes} {p q : Bytes}
    (hp : NullPoint L C p) (hq : NullPoint L C q) (n : Nat) : ∀ (r : R.σ),
    iterM (twoMeansStep (L := L) C mem addrs true (Angular.distance (L := L) C) init) n (p, q, N.oneW, N.oneW, r) =
      (iterM (drawStep R addrs.length) n r).map fun r' => (p, q, N.oneW, N.oneW, r') := by
  induction n with
  | zero => intro r; rfl
  | succ n ih =>
    intro r
    unfold iterM
    rw [twoMeansStep_null Z hp hq]
    cases drawStep R addrs.length r with
    | error e => rfl
    | ok r' => exact ih r'

/-- `TwoMeans` from start points without information: its answer is the zero vector twice. -/
theorem twoMeans_null (Z : N.ZeroLaws) {mem : Bytes} {addrs : List Nat} {normalize init : Bytes → Nat → Bytes}
    (hstart : ∀ a ∈ addrs, NullPoint L C (init (normalize (Node.copyNode zeros 0 mem a L.f) 0) 0)) (r : R.σ) {α : Type}
    (g : List N.V → List N.V → R.σ → α) :
    (twoMeans (L := L) C mem addrs r true (Angular.distance (L := L) C) normalize init).map
        (fun x => g (Node.vec L C x.1 0) (Node.vec L C x.2.1 0) x.2.2) =
      (drawMeans R addrs.length r).map (g (zeroVec N L.f) (zeroVec N L.f)) := by
  unfold twoMeans drawMeans
  cases twoMeansPick (R := R) addrs.length r with
  | error e => rfl
  | ok x =>
    obtain ⟨i, j, r'⟩ := x
    simp only [bind, Except.bind]
    by_cases hi : i < addrs.length
    · by_cases hj : j < addrs.length
      · rw [List.getElem?_eq_getElem hi, List.getElem?_eq_getElem hj, if_pos ⟨hi, hj⟩]
        have h1 := hstart _ (List.getElem_mem hi)
        have h2 := hstart _ (List.getElem_mem hj)
        simp only [if_true]
        rw [iter_null Z h1 h2]
        cases iterM (drawStep R addrs.length) 200 r' with
        | error e => rfl
        | ok r2 =>
          simp only [Except.map, h1.vec, h2.vec]
      · rw [List.getElem?_eq_none (l := addrs) (i := j) (by omega), if_neg (by omega)]
        cases addrs[i]? <;> rfl
    · rw [List.getElem?_eq_none (l := addrs) (i := i) (by omega), if_neg (by omega)]
      rfl

end

/-! ### what the two distances make of it -/

/-- A distance whose hyperplanes do not depend on the data and leave every side to chance.  `blank` describes the temporary nodes. -/
structure DataBlind (c : Cfg) (fin : c.N.V → Prop) (blank : Bytes → Prop) : Prop where
  fresh : blank zeros
  split : ∀ (d d' : Bytes) (addrs : List Nat) (r : c.R.σ) (m : Bytes), (∀ a ∈ addrs, ∃ v, ItemAt c d a v) → (∀ a ∈ addrs, ∃ v, ItemAt c d' a v) →
    c.D.createSplit d addrs r m = c.D.createSplit d' addrs r m
  used : ∀ (d : Bytes) (addrs : List Nat) (r : c.R.σ) (m m' : Bytes) (r' : c.R.σ), (∀ a ∈ addrs, ∃ v, ItemAt c d a v) → blank m →
    c.D.createSplit d addrs r m = .ok (m', r') → blank m'
  side : ∀ (m : Bytes) (v : List c.N.V) (r : c.R.σ), blank m → 0 < c.L.f → v.length = c.L.f → (∀ x ∈ v, fin x) →
    c.D.side m v r = .ok (c.R.nextSide r)

section
variable {N : Num} {C : Codec N.V} {R : Rng} {sI : List Nat → List Nat} {sP : List (N.V × Nat) → List (N.V × Nat)} {k f : Nat}

theorem vec_blankFrom {L : Layout} {p : Bytes} (hz : C.dec (List.replicate C.sz 0) = N.zero) (h : ∀ x, L.offV ≤ x → p x = 0) :
    Node.vec L C p 0 = zeroVec N L.f := by
  unfold Node.vec zeroVec
  refine List.eq_replicate_iff.2 ⟨by simp, fun y hy => ?_⟩
  obtain ⟨x, -, rfl⟩ := List.mem_map.1 hy
  rw [← hz]
  congr 1
  refine List.eq_replicate_iff.2 ⟨by simp [readBytes], fun y hy => ?_⟩
  obtain ⟨j, -, rfl⟩ := List.mem_map.1 hy
  exact h _ (by omega)

theorem vec_copied {L : Layout} {mem : Bytes} {a : Nat} (hz : C.dec (List.replicate C.sz 0) = N.zero) (hf : L.f ≤ L.offV) :
    Node.vec L C (Node.copyNode zeros 0 mem a L.f) 0 = zeroVec N L.f := by
  refine vec_blankFrom hz fun x hx => ?_
  rw [Node.copyNode_frame _ _ _ _ _ _ (Or.inr (by omega))]
  rfl

theorem sideOf_zero (Z : N.ZeroLaws) (K : N.Canon) {x : N.V} (hx : K.can x = N.zero) (r : R.σ) :
    Angular.sideOf x r = R.nextSide r := by
  unfold Angular.sideOf
  have : N.eq x N.zero = true := by rw [← K.eq, hx, K.zero, Z.eq]
  rw [this]
  rfl

theorem dot_zeroVec (K : N.Canon) {v : List N.V} {n : Nat} (hv : ∀ x ∈ v, K.fin x) :
    K.can (Vec.dot N (zeroVec N n) v) = N.zero := by
  unfold Vec.dot
  rw [dotFrom_zeros K _ _ (by unfold zeroVec; intro x hx; exact List.eq_of_mem_replicate hx) hv, K.zero]

section
variable {L : Layout}

/-- The hyperplane of the angular distance. -/
theorem angular_split_form (hL : L.Ok C.sz) (Z : N.ZeroLaws) (hz : C.dec (List.replicate C.sz 0) = N.zero) (hf : L.f ≤ L.offV)
    (d : Bytes) (addrs : List Nat) (r : R.σ) (m : Bytes) :
    Angular.createSplit (L := L) C d addrs r m =
      (drawMeans R addrs.length r).map fun r' => (Angular.normalize (L := L) C (Node.setVec L C m 0 (zeroVec N L.f)) 0, r') := by
  have := twoMeans_null (L := L) (C := C) (R := R) Z (mem := d) (addrs := addrs)
    (normalize := Angular.normalize (L := L) C) (init := Angular.initNode (L := L) C) ?_ r
    (fun x y r' => (Angular.normalize (L := L) C (Node.setVec L C m 0 (List.zipWith N.sub x y)) 0, r'))
  · rw [Z.subs] at this
    rw [← this]
    rfl
  · intro a _
    have e : Node.vec L C (Angular.normalize (L := L) C (Node.copyNode zeros 0 d a L.f) 0) 0 = zeroVec N L.f := by
      rw [Angular.vec_normalize, vec_copied hz hf, Z.normalize]
    refine ⟨?_, ?_⟩
    · rw [Angular.vec_initNode hL, e]
    · unfold Angular.initNode
      rw [Node.norm_setNorm, e, Z.dot]

/-- The hyperplane of the dot product distance, for items without a norm. -/
theorem dot_split_form (hL : L.Ok C.sz) (Z : N.ZeroLaws) (hz : C.dec (List.replicate C.sz 0) = N.zero) (hf : L.f ≤ L.offV)
    (d : Bytes) (addrs : List Nat) (hd : ∀ a ∈ addrs, ∀ j, L.szIX ≤ j → j < 3 * L.szIX → d (a + j) = 0) (r : R.σ) (m : Bytes) :
    DotProduct.createSplit (L := L) C d addrs r m =
      (drawMeans R addrs.length r).map fun r' => (DotProduct.normalize (L := L) C (Node.setVec L C m 0 (zeroVec N L.f)) 0, r') := by
  have hnull : ∀ b : Bytes, Node.vec L C b 0 = zeroVec N L.f → DotProduct.normalize (L := L) C b 0 = b := by
    intro b hb
    unfold DotProduct.normalize
    dsimp only
    rw [hb, Z.norm, Z.lt]
    rfl
  have := twoMeans_null (L := L) (C := C) (R := R) Z (mem := d) (addrs := addrs)
    (normalize := DotProduct.normalize (L := L) C) (init := fun b _ => b) ?_ r
    (fun x y r' => (DotProduct.normalize (L := L) C (Node.setVec L C m 0 (List.zipWith N.sub x y)) 0, r'))
  · rw [Z.subs] at this
    rw [← this]
    rfl
  · intro a ha
    have e : Node.vec L C (Node.copyNode zeros 0 d a L.f) 0 = zeroVec N L.f := vec_copied hz hf
    rw [hnull _ e]
    refine ⟨e, ?_⟩
    rw [← hz]
    unfold Node.norm
    congr 1
    refine List.eq_replicate_iff.2 ⟨by simp [readBytes], fun y hy => ?_⟩
    obtain ⟨j, hj, rfl⟩ := List.mem_map.1 hy
    have hj := List.mem_range.1 hj
    have hn := hL.norm_fits
    by_cases hlt : 0 + L.szIX + j < L.f
    · have := Node.copyNode_inside zeros 0 d a L.f (L.szIX + j) (by omega)
      rw [show 0 + (L.szIX + j) = 0 + L.szIX + j by omega] at this
      rw [this]
      exact hd a ha _ (by omega) (by omega)
    · rw [Node.copyNode_frame _ _ _ _ _ _ (Or.inr (by omega))]
      rfl

theorem angular_side_form (Z : N.ZeroLaws) (K : N.Canon) {m : Bytes} {v : List N.V} (r : R.σ) (hm : Node.vec L C m 0 = zeroVec N L.f)
    (hf0 : 0 < L.f) (hv : v.length = L.f) (hfin : ∀ x ∈ v, K.fin x) :
    (angular L N R C).side m v r = .ok (R.nextSide r) := by
  show (Angular.margin (L := L) C m 0 v >>= fun dot => .ok (Angular.sideOf dot r)) = _
  unfold Angular.margin
  rw [if_neg (by cases v with | nil => simp at hv; omega | cons => simp), if_neg (by omega)]
  simp only [bind, Except.bind, Except.ok.injEq]
  exact sideOf_zero Z K (by rw [hm]; exact dot_zeroVec K hfin) r

theorem dot_side_form (Z : N.ZeroLaws) (K : N.Canon) {m : Bytes} {v : List N.V} (r : R.σ) (hm : Node.vec L C m 0 = zeroVec N L.f)
    (hd : Node.dotFactor L C m 0 = N.zero) (hf0 : 0 < L.f) (hv : v.length = L.f) (hfin : ∀ x ∈ v, K.fin x) :
    (dotProduct L N R C).side m v r = .ok (R.nextSide r) := by
  show (DotProduct.margin (L := L) C m 0 v >>= fun dot => .ok (Angular.sideOf dot r)) = _
  unfold DotProduct.margin
  rw [if_neg (by cases v with | nil => simp at hv; omega | cons => simp), if_neg (by omega)]
  simp only [bind, Except.bind, Except.ok.injEq]
  refine sideOf_zero Z K ?_ r
  rw [hm, hd, Z.mul, K.add_zero _ K.zero]
  exact dot_zeroVec K hfin

theorem angular_used (Z : N.ZeroLaws) (m : Bytes) :
    Node.vec L C (Angular.normalize (N := N) (L := L) C (Node.setVec L C m 0 (zeroVec N L.f)) 0) 0 = zeroVec N L.f := by
  rw [Angular.vec_normalize, Node.vec_setVec C _ _ _ (by simp [zeroVec]), Z.normalize]

theorem dot_used (Z : N.ZeroLaws) (m : Bytes) :
    DotProduct.normalize (N := N) (L := L) C (Node.setVec L C m 0 (zeroVec N L.f)) 0 = Node.setVec L C m 0 (zeroVec N L.f) := by
  unfold DotProduct.normalize
  dsimp only
  rw [Node.vec_setVec C _ _ _ (by simp [zeroVec]), Z.norm, Z.lt]
  rfl

end

theorem map_ok_iff {α β : Type} {x : Except Err α} {g : α → β} {y : β} (h : x.map g = .ok y) : ∃ a, x = .ok a ∧ g a = y := by
  cases x with
  | error e => cases h
  | ok a => exact ⟨a, rfl, Except.ok.inj h⟩

/-- The angular distance. -/
theorem angular_dataBlind (hL : (angularCfg N C R sI sP k f).L.Ok C.sz) (Z : N.ZeroLaws) (K : N.Canon)
    (hz : C.dec (List.replicate C.sz 0) = N.zero) (hf : (angularCfg N C R sI sP k f).L.f ≤ (angularCfg N C R sI sP k f).L.offV) :
    DataBlind (angularCfg N C R sI sP k f) K.fin
      (fun m => Node.vec (angularCfg N C R sI sP k f).L C m 0 = zeroVec N (angularCfg N C R sI sP k f).L.f) := by
  refine ⟨vec_blankFrom hz fun _ _ => rfl, ?_, ?_, fun m v r hm => angular_side_form Z K r hm⟩
  · intro d d' addrs r m _ _
    exact (angular_split_form hL Z hz hf d addrs r m).trans (angular_split_form hL Z hz hf d' addrs r m).symm
  · intro d addrs r m m' r' _ _ h
    obtain ⟨x, -, h2⟩ := map_ok_iff ((angular_split_form hL Z hz hf d addrs r m).symm.trans h)
    rw [← (Prod.mk.inj h2).1]
    exact angular_used Z m

/-- The dot product distance. -/
theorem dot_dataBlind (hL : (dotCfg N C R sI sP k f).L.Ok C.sz) (Z : N.ZeroLaws) (K : N.Canon)
    (hz : C.dec (List.replicate C.sz 0) = N.zero) (hf : (dotCfg N C R sI sP k f).L.f ≤ (dotCfg N C R sI sP k f).L.offV) :
    DataBlind (dotCfg N C R sI sP k f) K.fin
      (fun m => Node.vec (dotCfg N C R sI sP k f).L C m 0 = zeroVec N (dotCfg N C R sI sP k f).L.f ∧
        Node.dotFactor (dotCfg N C R sI sP k f).L C m 0 = N.zero) := by
  have hsz : C.sz ≤ (dotCfg N C R sI sP k f).L.offV := Nat.le_add_left _ _
  have hblank : ∀ {d : Bytes} {addrs : List Nat}, (∀ a ∈ addrs, ∃ v, ItemAt (dotCfg N C R sI sP k f) d a v) →
      ∀ a ∈ addrs, ∀ j, (dotCfg N C R sI sP k f).L.szIX ≤ j → j < 3 * (dotCfg N C R sI sP k f).L.szIX → d (a + j) = 0 := by
    intro d addrs h a ha j h1 h2
    obtain ⟨v, hv⟩ := h a ha
    rw [hv.head j h1 h2]
    have h3 := hL.offV_ge
    exact Node.setVec_frame (L := (dotCfg N C R sI sP k f).L) C zeros 0 v j (Or.inl (by omega))
  refine ⟨⟨vec_blankFrom hz fun _ _ => rfl, ?_⟩, ?_, ?_, fun m v r hm => dot_side_form Z K r hm.1 hm.2⟩
  · rw [← hz]
    unfold Node.dotFactor
    congr 1
    refine List.eq_replicate_iff.2 ⟨by simp [readBytes], fun y hy => ?_⟩
    obtain ⟨j, hj, rfl⟩ := List.mem_map.1 hy
    rfl
  · intro d d' addrs r m h1 h2
    exact (dot_split_form hL Z hz hf d addrs (hblank h1) r m).trans (dot_split_form hL Z hz hf d' addrs (hblank h2) r m).symm
  · intro d addrs r m m' r' h1 hm h
    obtain ⟨x, -, h2⟩ := map_ok_iff ((dot_split_form hL Z hz hf d addrs (hblank h1) r m).symm.trans h)
    rw [← (Prod.mk.inj h2).1]
    have e : Node.vec (dotCfg N C R sI sP k f).L C (Node.setVec (dotCfg N C R sI sP k f).L C m 0
      (zeroVec N (dotCfg N C R sI sP k f).L.f)) 0 = zeroVec N (dotCfg N C R sI sP k f).L.f :=
        Node.vec_setVec C _ _ _ (by simp [zeroVec])
    have e2 : Node.dotFactor (dotCfg N C R sI sP k f).L C (Node.setVec (dotCfg N C R sI sP k f).L C m 0
      (zeroVec N (dotCfg N C R sI sP k f).L.f)) 0 = N.zero := by
      rw [← hm.2]
      apply Node.dotFactor_congr
      intro j hj
      rw [Node.setVec_frame _ _ _ _ _ (Or.inl (by omega))]
    refine ⟨?_, ?_⟩
    · rw [dot_used Z m]; exact e
    · rw [dot_used Z m]; exact e2

end
end Annoy
