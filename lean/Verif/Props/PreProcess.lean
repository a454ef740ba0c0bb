import Verif.Props.Geometry
/-!
# Dot product pre-processing (C46)

`dotFactor_of_fold` is about bytes; `C46_factors` is about a built index in the arithmetic of the code; `C46_equal_norms` is the geometric
meaning in exact arithmetic.
-/
namespace Annoy
open RealInnerProductSpace

section
variable {N : Num} (C : Codec N.V) {L : Layout}

theorem node_ne' {i j x y z : Nat} (h : i ≠ j) (hx : x < z) (hy : y < z) : i * z + x ≠ j * z + y := by
  rcases Nat.lt_or_gt_of_ne h with h | h
  · have := Nat.mul_le_mul_right z h
    rw [Nat.succ_mul] at this
    omega
  · have := Nat.mul_le_mul_right z h
    rw [Nat.succ_mul] at this
    omega

/-- One pass over the nodes that sets the factor of every node from what the node holds. -/
theorem fold_factors (hsz : C.sz ≤ L.offV) (hoff : L.offV ≤ L.nodeSize) (F : Bytes → Nat → N.V)
    (hF : ∀ b b' i, SameNode L b b' i → F b i = F b' i) (l : List Nat) (hl : l.Nodup) (ha : ∀ i ∈ l, L.addr i = i * L.nodeSize) : ∀ b : Bytes,
    (∀ i ∈ l, Node.dotFactor L C (l.foldl (fun b i => Node.setDotFactor L C b (L.addr i) (F b i)) b) (i * L.nodeSize) = F b i) ∧
    (∀ i, i ∉ l → SameNode L (l.foldl (fun b i => Node.setDotFactor L C b (L.addr i) (F b i)) b) b i) ∧
    ∀ i j, j < L.nodeSize → (j < L.offV - C.sz ∨ L.offV ≤ j) →
      (l.foldl (fun b i => Node.setDotFactor L C b (L.addr i) (F b i)) b) (i * L.nodeSize + j) = b (i * L.nodeSize + j) := by
  induction l with
  | nil => exact fun b => ⟨by simp, fun i _ j _ => rfl, fun i j _ _ => rfl⟩
  | cons k l ih =>
    intro b
    obtain ⟨hk, hl⟩ := List.nodup_cons.1 hl
    rw [List.foldl_cons, ha k (by simp)]
    set b1 := Node.setDotFactor L C b (k * L.nodeSize) (F b k) with hb1
    obtain ⟨h1, h2, h3⟩ := ih hl (fun i hi => ha i (by simp [hi])) b1
    have hne : ∀ i, i ≠ k → SameNode L b1 b i := by
      intro i hi j hj
      rw [hb1]
      apply Node.setDotFactor_frame _ _ _ _ _ hsz
      rcases Nat.lt_or_gt_of_ne hi with h | h
      · have := Nat.mul_le_mul_right L.nodeSize h
        rw [Nat.succ_mul] at this
        omega
      · have := Nat.mul_le_mul_right L.nodeSize h
        rw [Nat.succ_mul] at this
        omega
    refine ⟨?_, ?_, ?_⟩
    · intro i hi
      rcases List.mem_cons.1 hi with rfl | hi
      · rw [← Node.dotFactor_setDotFactor (L := L) C b (i * L.nodeSize) (F b i), ← hb1]
        apply Node.dotFactor_congr
        intro j hj
        have := h2 i hk (L.offV - C.sz + j) (by omega)
        rw [show i * L.nodeSize + L.offV - C.sz + j = i * L.nodeSize + (L.offV - C.sz + j) by omega]
        exact this
      · rw [h1 i hi]
        exact hF _ _ _ (hne i (fun e => hk (e ▸ hi)))
    · intro i hi j hj
      rw [h2 i (fun e => hi (by simp [e])) j hj]
      exact hne i (fun e => hi (by simp [e])) j hj
    · intro i j hj hj'
      rw [h3 i j hj hj', hb1]
      apply Node.setDotFactor_frame _ _ _ _ _ hsz
      by_cases hi : i = k
      · subst hi; omega
      · rcases Nat.lt_or_gt_of_ne hi with h | h
        · have := Nat.mul_le_mul_right L.nodeSize h
          rw [Nat.succ_mul] at this
          omega
        · have := Nat.mul_le_mul_right L.nodeSize h
          rw [Nat.succ_mul] at this
          omega

/-- `PreProcess` on `n` nodes: the factors, and nothing else. -/
theorem preProcess_bytes (hsz : C.sz ≤ L.offV) (hL : L.Ok C.sz) (n : Nat) (ha : ∀ i, i < n → L.addr i = i * L.nodeSize) (b : Bytes) :
    (∀ i, i < n → Node.dotFactor L C (DotProduct.preProcess (L := L) C b n) (i * L.nodeSize) =
      DotProduct.stepThreeFactor N
        (DotProduct.maxNorm N ((List.range n).map fun k => DotProduct.stepOneFactor N (Node.vec L C b (k * L.nodeSize))))
        (DotProduct.stepOneFactor N (Node.vec L C b (i * L.nodeSize)))) ∧
    ∀ i j, j < L.nodeSize → (j < L.offV - C.sz ∨ L.offV ≤ j) →
      DotProduct.preProcess (L := L) C b n (i * L.nodeSize + j) = b (i * L.nodeSize + j) := by
  have hoff : L.offV ≤ L.nodeSize := by have := hL.size_eq; omega
  have hpos := hL.sz_pos
  have hvec : ∀ b b' i, SameNode L b b' i → Node.vec L C b (i * L.nodeSize) = Node.vec L C b' (i * L.nodeSize) := by
    intro b b' i h
    apply Node.vec_congr
    intro j hj
    have := h (L.offV + j) (by have := hL.size_eq; omega)
    simpa [Nat.add_assoc] using this
  have hdf : ∀ b b' i, SameNode L b b' i → Node.dotFactor L C b (i * L.nodeSize) = Node.dotFactor L C b' (i * L.nodeSize) := by
    intro b b' i h
    apply Node.dotFactor_congr
    intro j hj
    rw [show i * L.nodeSize + L.offV - C.sz + j = i * L.nodeSize + (L.offV - C.sz + j) by omega]
    exact h _ (by omega)
  have hfold : ∀ (G H : Bytes → Nat → N.V) (b : Bytes), (∀ b i, i < n → G b i = H b i) →
      (List.range n).foldl (fun b i => Node.setDotFactor L C b (L.addr i) (G b i)) b =
      (List.range n).foldl (fun b i => Node.setDotFactor L C b (L.addr i) (H b i)) b := by
    intro G H b h
    apply List.foldl_ext
    intro b i hi
    rw [h b i (List.mem_range.1 hi)]
  unfold DotProduct.preProcess
  dsimp only
  rw [hfold (fun b i => DotProduct.stepOneFactor N (Node.vec L C b (L.addr i)))
    (fun b i => DotProduct.stepOneFactor N (Node.vec L C b (i * L.nodeSize))) b (fun b i hi => by rw [ha i hi])]
  have h1 := fold_factors C hsz hoff (fun b i => DotProduct.stepOneFactor N (Node.vec L C b (i * L.nodeSize)))
    (fun b b' i h => by rw [hvec b b' i h]) (List.range n) List.nodup_range (fun i hi => ha i (List.mem_range.1 hi)) b
  set b1 := (List.range n).foldl (fun b i =>
    Node.setDotFactor L C b (L.addr i) (DotProduct.stepOneFactor N (Node.vec L C b (i * L.nodeSize)))) b with hb1
  have hmx : (List.range n).map (fun i => Node.dotFactor L C b1 (L.addr i)) =
      (List.range n).map fun k => DotProduct.stepOneFactor N (Node.vec L C b (k * L.nodeSize)) := by
    apply List.map_congr_left
    intro i hi
    rw [ha i (List.mem_range.1 hi)]
    exact h1.1 i hi
  rw [hmx]
  set mx := DotProduct.maxNorm N ((List.range n).map fun k => DotProduct.stepOneFactor N (Node.vec L C b (k * L.nodeSize)))
  rw [hfold (fun b i => DotProduct.stepThreeFactor N mx (Node.dotFactor L C b (L.addr i)))
    (fun b i => DotProduct.stepThreeFactor N mx (Node.dotFactor L C b (i * L.nodeSize))) b1 (fun b i hi => by rw [ha i hi])]
  have h2 := fold_factors C hsz hoff (fun b i => DotProduct.stepThreeFactor N mx (Node.dotFactor L C b (i * L.nodeSize)))
    (fun b b' i h => by rw [hdf b b' i h]) (List.range n) List.nodup_range (fun i hi => ha i (List.mem_range.1 hi)) b1
  refine ⟨?_, ?_⟩
  · intro i hi
    rw [h2.1 i (List.mem_range.2 hi), h1.1 i (List.mem_range.2 hi)]
  · intro i j hj hj'
    rw [h2.2.2 i j hj hj', h1.2.2 i j hj hj']

end

section
variable {N : Num} {C : Codec N.V} {R : Rng} {sortIds : List Nat → List Nat} {sortP : List (N.V × Nat) → List (N.V × Nat)} {k f : Nat}

/-- The vector of a slot: what was added last, or the zero vector if nothing was added. -/
def slotVec (C : Codec N.V) (L : Layout) (adds : List (Nat × List N.V)) (i : Nat) : List N.V :=
  (lastAdded adds i).getD (List.replicate L.f (C.dec (List.replicate C.sz 0)))

/-- The extra dimension of the Bachrach transformation: `sqrt(M² − |v|²)`, where `M` is the largest norm. -/
def extraDim (N : Num) (vs : List (List N.V)) (v : List N.V) : N.V :=
  DotProduct.stepThreeFactor N (DotProduct.maxNorm N (vs.map (DotProduct.stepOneFactor N))) (DotProduct.stepOneFactor N v)

/-- **C46**, in the arithmetic of the code: after `Build` the node of every item holds the vector that was added, and as its factor the extra
dimension computed from the vectors of all slots.  Every back end, policy, schedule and generator. -/
theorem Session.C46_factors {numCPU : Nat} {pol : BuildPolicy} {adds : List (Nat × List N.V)} {trees workers : Int}
    {s s' : Idx (dotCfg N C R sortIds sortP k f)}
    (h : Session (dotCfg N C R sortIds sortP k f) numCPU pol adds trees workers s s') (i : Nat) (hi : i < slotCount adds) (w : World) :
    Node.vec (dotLayout k C.sz f) C (s'.mem w).get (i * (dotLayout k C.sz f).nodeSize) = slotVec C (dotLayout k C.sz f) adds i ∧
    Node.dotFactor (dotLayout k C.sz f) C (s'.mem w).get (i * (dotLayout k C.sz f).nodeSize) =
      extraDim N ((List.range (slotCount adds)).map (slotVec C (dotLayout k C.sz f) adds)) (slotVec C (dotLayout k C.sz f) adds i) := by
  obtain ⟨N0, B, _⟩ := h.built
  have hc := h.wf
  have hL : (dotLayout k C.sz f).Ok C.sz := hc.layout
  have hk := dotLayout_off (k := k) (f := f) hL.sz_pos
  obtain ⟨b0, p1, p2, p3⟩ := B.pre
  have hnn : slotCount adds ≤ s'.nNodes := B.n_le_nNodes
  have hns : s'.nNodes ≤ s'.nodesSize := B.le_size
  have hmem : (s'.mem w).get = s'.alloc.data := by
    rw [(B.mem_eq w (by omega)).1]; rfl
  rw [hmem]
  have hoff : (dotLayout k C.sz f).offV ≤ (dotLayout k C.sz f).nodeSize := by have := hL.size_eq; omega
  have hpos := hL.sz_pos
  have hsz := hL.size_eq
  have ha : ∀ i, i < slotCount adds → (dotLayout k C.sz f).addr i = i * (dotLayout k C.sz f).nodeSize := by
    intro i hi
    exact (B.memOK.getNode (i := i) (by omega)).2
  obtain ⟨q1, q2⟩ := preProcess_bytes C (L := dotLayout k C.sz f) (by omega) hL (slotCount adds) ha b0
  have hvec0 : ∀ i, i < slotCount adds → Node.vec (dotLayout k C.sz f) C b0 (i * (dotLayout k C.sz f).nodeSize) =
      slotVec C (dotLayout k C.sz f) adds i := by
    intro i hi
    unfold slotVec
    cases hm : lastAdded adds i with
    | some v => exact (p1 i v hm).vec
    | none =>
      show _ = List.replicate f _
      apply List.ext_getElem
      · simp [Node.vec]; rfl
      · intro j h1 h2
        have hj : j < f := by simpa [Node.vec] using h2
        have hj2 : (j + 1) * C.sz ≤ f * C.sz := Nat.mul_le_mul_right _ hj
        rw [Nat.add_mul] at hj2
        have hf : (dotLayout k C.sz f).f = f := rfl
        rw [hf] at hsz
        simp only [Node.vec, List.getElem_map, List.getElem_range, List.getElem_replicate]
        congr 1
        apply List.ext_getElem
        · simp
        · intro a h3 h4
          have h4' : a < C.sz := by simpa using h4
          simp only [readBytes, List.getElem_map, List.getElem_range, List.getElem_replicate]
          have := p2 i hi hm ((dotLayout k C.sz f).offV + j * C.sz + a)
            (show _ < (dotLayout k C.sz f).nodeSize by omega)
          rw [← this]
          show b0 _ = b0 (i * (dotLayout k C.sz f).nodeSize + _)
          congr 1
          omega
  have hsame : SameNode (dotLayout k C.sz f) s'.alloc.data (DotProduct.preProcess (L := dotLayout k C.sz f) C b0 (slotCount adds)) i :=
    fun j hj => p3 _ (Idx.node_lt hi hj)
  refine ⟨?_, ?_⟩
  · rw [← hvec0 i hi]
    apply Node.vec_congr
    intro j hj
    have h1 := hsame ((dotLayout k C.sz f).offV + j) (by omega)
    rw [q2 i ((dotLayout k C.sz f).offV + j) (by omega) (Or.inr (by omega))] at h1
    simpa [Nat.add_assoc] using h1
  · have h1 := q1 i hi
    rw [hvec0 i hi] at h1
    unfold extraDim
    rw [List.map_map]
    refine (Node.dotFactor_congr C fun j hj => ?_).trans (h1.trans ?_)
    · rw [show i * (dotLayout k C.sz f).nodeSize + (dotLayout k C.sz f).offV - C.sz + j =
        i * (dotLayout k C.sz f).nodeSize + ((dotLayout k C.sz f).offV - C.sz + j) by omega]
      exact hsame _ (by omega)
    · congr 2
      apply List.map_congr_left
      intro a ha
      show DotProduct.stepOneFactor N _ = _
      rw [hvec0 a (List.mem_range.1 ha)]
      rfl

end

/-- `(3, 0)` and `(0, 4)` in `float32`: the largest norm is 4, the extra dimensions are `√7` and 0; the index exists (`twoOnALine` in
`Props/Distance.lean`, where they are `√5` and 0). -/
example : extraDim ieee32 [[x32 0x40400000, x32 0], [x32 0, x32 0x40800000]] [x32 0x40400000, x32 0] = x32 0x402953FD ∧
    extraDim ieee32 [[x32 0x40400000, x32 0], [x32 0, x32 0x40800000]] [x32 0, x32 0x40800000] = x32 0 ∧
    slotVec (bvCodec 4) (dotLayout 4 4 2) twoOnALine 1 = [x32 0x40400000, x32 0] ∧
    extraDim ieee32 ((List.range 2).map (slotVec (bvCodec 4) (dotLayout 4 4 2) twoOnALine)) [x32 0x40000000, x32 0] = x32 0x400F1BBD := by
  decide +kernel

/-! ### exact arithmetic -/

theorem ge_real (x y : ℝ) : DotProduct.ge realNum x y = true ↔ y ≤ x := by
  classical
  show (decide (y < x) || decide (x = y)) = true ↔ _
  rw [Bool.or_eq_true, decide_eq_true_eq, decide_eq_true_eq, le_iff_lt_or_eq]
  exact or_congr Iff.rfl eq_comm

theorem stepOne_real {n : Nat} {v : List ℝ} (hv : v.length = n) : DotProduct.stepOneFactor realNum v = ‖pt n v‖ := by
  unfold DotProduct.stepOneFactor
  dsimp only
  rw [if_pos ((ge_real _ _).2 (by rw [dot_self hv]; positivity))]
  show Real.sqrt (Vec.dot realNum v v) = _
  rw [dot_self hv, Real.sqrt_sq (norm_nonneg _)]

theorem maxNorm_fold (l : List ℝ) : ∀ m0 : ℝ, let M := l.foldl (fun m df => if realNum.lt m df then df else m) m0
    m0 ≤ M ∧ (∀ x ∈ l, x ≤ M) ∧ (M = m0 ∨ M ∈ l) := by
  classical
  induction l with
  | nil => intro m0; simp
  | cons a l ih =>
    intro m0
    simp only [List.foldl_cons]
    obtain ⟨h1, h2, h3⟩ := ih (if realNum.lt m0 a then a else m0)
    set M := l.foldl (fun m df => if realNum.lt m df then df else m) (if realNum.lt m0 a then a else m0)
    have hlt : realNum.lt m0 a = true ↔ m0 < a := by show decide (m0 < a) = true ↔ _; simp
    by_cases h : m0 < a
    · rw [if_pos (hlt.2 h)] at h1 h3
      refine ⟨h.le.trans h1, fun x hx => ?_, ?_⟩
      · rcases List.mem_cons.1 hx with rfl | hx
        · exact h1
        · exact h2 x hx
      · rcases h3 with h3 | h3
        · right; rw [h3]; simp
        · right; simp [h3]
    · rw [if_neg (fun hh => h (hlt.1 hh))] at h1 h3
      refine ⟨h1, fun x hx => ?_, ?_⟩
      · rcases List.mem_cons.1 hx with rfl | hx
        · exact (not_lt.1 h).trans h1
        · exact h2 x hx
      · rcases h3 with h3 | h3
        · left; exact h3
        · right; simp [h3]

/-- **C46**, exact arithmetic: there is a largest norm `M`, and with the extra dimension every vector has norm `M`. -/
theorem C46_equal_norms {n : Nat} (vs : List (List ℝ)) (hne : vs ≠ []) (hlen : ∀ v ∈ vs, v.length = n) :
    ∃ M : ℝ, (∃ u ∈ vs, ‖pt n u‖ = M) ∧ (∀ u ∈ vs, ‖pt n u‖ ≤ M) ∧
      ∀ v ∈ vs, ‖pt n v‖ ^ 2 + extraDim realNum vs v ^ 2 = M ^ 2 ∧ 0 ≤ extraDim realNum vs v := by
  have hmap : vs.map (DotProduct.stepOneFactor realNum) = vs.map fun u => ‖pt n u‖ :=
    List.map_congr_left fun u hu => stepOne_real (hlen u hu)
  obtain ⟨h1, h2, h3⟩ := maxNorm_fold (vs.map fun u => ‖pt n u‖) 0
  have hM : DotProduct.maxNorm realNum (vs.map (DotProduct.stepOneFactor realNum)) =
      (vs.map fun u => ‖pt n u‖).foldl (fun m df => if realNum.lt m df then df else m) 0 := by rw [hmap]; rfl
  set M := (vs.map fun u => ‖pt n u‖).foldl (fun m df => if realNum.lt m df then df else m) (0 : ℝ)
  have hle : ∀ u ∈ vs, ‖pt n u‖ ≤ M := fun u hu => h2 _ (List.mem_map_of_mem (f := fun u => ‖pt n u‖) hu)
  refine ⟨M, ?_, hle, ?_⟩
  · rcases h3 with h3 | h3
    · obtain ⟨u, hu⟩ := List.exists_mem_of_ne_nil _ hne
      exact ⟨u, hu, le_antisymm (hle u hu) (h3 ▸ norm_nonneg _)⟩
    · obtain ⟨u, hu, e⟩ := List.mem_map.1 h3
      exact ⟨u, hu, e⟩
  · intro v hv
    have hx : extraDim realNum vs v = Real.sqrt (M ^ 2 - ‖pt n v‖ ^ 2) := by
      unfold extraDim
      rw [hM, stepOne_real (hlen v hv)]
      unfold DotProduct.stepThreeFactor
      dsimp only
      rw [if_pos]
      rw [ge_real]
      show (0 : ℝ) ≤ M ^ 2 - ‖pt n v‖ ^ 2
      have := hle v hv
      have := norm_nonneg (pt n v)
      nlinarith
    have h0 : 0 ≤ M ^ 2 - ‖pt n v‖ ^ 2 := by
      have := hle v hv
      have := norm_nonneg (pt n v)
      nlinarith
    rw [hx, Real.sq_sqrt h0]
    exact ⟨by ring, Real.sqrt_nonneg _⟩

end Annoy
