import Verif.Props.Sorting
import Verif.Proof.Layout
import Verif.Spec.Cfg
import Verif.Proof.Imbalance
/-!
The configurations of the repository meet the contracts `Cfg.WF`.
-/
namespace Annoy

theorem sortNat_perm (l : List Nat) : (sortNat l).Perm l := List.perm_insertionSort _ l

theorem sortNat_sorted (l : List Nat) : (sortNat l).Pairwise (· ≤ ·) := List.pairwise_insertionSort _ l

/-- What the external sorts must do. -/
structure Externals (N : Num) (sortIds : List Nat → List Nat)
    (sortP : List (N.V × Nat) → List (N.V × Nat)) : Prop where
  lawful : N.Lawful
  ids_perm : ∀ l, (sortIds l).Perm l
  ids_sorted : ∀ l, (sortIds l).Pairwise (· ≤ ·)
  pairs : SortsOn (PairLt N) (PairOk N) sortP

theorem externals_concrete {N : Num} (h : N.Lawful) : Externals N sortNat (sortPairs N) :=
  ⟨h, sortNat_perm, sortNat_sorted, sortPairs_sortsOn h⟩

section
variable {N : Num} {C : Codec N.V} {R : Rng} {sortIds : List Nat → List Nat}
  {sortP : List (N.V × Nat) → List (N.V × Nat)}

theorem partialSort_contract (he : Externals N sortIds sortP) (l : List (N.V × Nat)) (m : Nat)
    (hok : ∀ p ∈ l, N.Ordinary p.1) (hm : m ≤ l.length) :
    ((Srt.partialSortSlice (pairLess N) sortP l 0 m l.length).take m).Pairwise (PairLe N) ∧
    ∀ p ∈ (Srt.partialSortSlice (pairLess N) sortP l 0 m l.length).take m,
      ∀ q ∈ (Srt.partialSortSlice (pairLess N) sortP l 0 m l.length).drop m, PairLe N p q := by
  have h := C38_whole_slice he.lawful he.pairs l m hm hok
  have hp := Srt.partialSortSlice_perm he.pairs.perm (pairLess N) l 0 m l.length le_rfl
  refine ⟨?_, ?_⟩
  · have := h.sorted
    simp only [List.drop_zero, Nat.sub_zero] at this
    exact this.imp fun h => (pairLess_false N _ _).2 h
  · intro p hp' q hq
    have := h.least p (by simpa using hp') q (by
      rw [List.take_of_length_le]
      · exact hq
      · rw [List.length_drop, hp.length_eq])
    exact (pairLess_false N _ _).2 this

theorem sameItem_norm {c : Cfg} (hL : c.L.Ok c.C.sz) {b a d e} (h : SameItem c b a d e) :
    Node.norm c.L c.C b a = Node.norm c.L c.C d e := by
  apply Node.norm_congr
  intro j hj
  have := h.2 (c.L.szIX + j) (by omega) (by have := hL.norm_fits; omega)
  simpa [Nat.add_assoc] using this

/-- `TwoMeans` only looks at the nodes it is given. -/
theorem twoMeans_congr {L : Layout} (hL : L.Ok C.sz) {b b' : Bytes} {addrs : List Nat} (r : R.σ) (cosine : Bool)
    {distance : Bytes → Nat → Bytes → Nat → N.V} (normalize initNode : Bytes → Nat → Bytes)
    (h : ∀ a ∈ addrs, ∀ j, j < L.nodeSize → b (a + j) = b' (a + j))
    (hd : ∀ p a, (∀ j, j < L.nodeSize → b (a + j) = b' (a + j)) → distance p 0 b a = distance p 0 b' a) :
    twoMeans (L := L) C b addrs r cosine distance normalize initNode = twoMeans (L := L) C b' addrs r cosine distance normalize initNode := by
  have hsize := hL.size_eq
  have hsz := hL.sz_pos
  have hv : ∀ a ∈ addrs, Node.vec L C b a = Node.vec L C b' a := by
    intro a ha
    apply Node.vec_congr
    intro j hj
    have h5 := h a ha (L.offV + j) (by omega)
    simpa [Nat.add_assoc] using h5
  have hcp : ∀ a ∈ addrs, Node.copyNode zeros 0 b a L.f = Node.copyNode zeros 0 b' a L.f := by
    intro a ha
    apply Bytes.ext'; intro x
    by_cases hx : x < L.f
    · have e1 := Node.copyNode_inside zeros 0 b a L.f x hx
      have e2 := Node.copyNode_inside zeros 0 b' a L.f x hx
      rw [Nat.zero_add] at e1 e2
      rw [e1, e2]
      have : L.f * 1 ≤ L.f * C.sz := Nat.mul_le_mul_left _ hsz
      exact h a ha x (by omega)
    · rw [Node.copyNode_frame _ _ _ _ _ _ (Or.inr (by omega)), Node.copyNode_frame _ _ _ _ _ _ (Or.inr (by omega))]
  have hstep : twoMeansStep (R := R) (L := L) C b addrs cosine distance initNode = twoMeansStep (L := L) C b' addrs cosine distance initNode := by
    funext st
    obtain ⟨p, q, ic, jc, r⟩ := st
    unfold twoMeansStep
    simp only [bind, Except.bind]
    split
    · rfl
    · next v hv' =>
      obtain ⟨k, r⟩ := v
      cases hk : addrs[k]? with
      | none => rfl
      | some nk =>
        have hm := List.mem_of_getElem? hk
        simp only [hv nk hm, hd _ nk (h nk hm)]
  unfold twoMeans
  simp only [bind, Except.bind, hstep]
  split
  · rfl
  · next v hv' =>
    obtain ⟨i, j, r⟩ := v
    cases hi : addrs[i]? with
    | none => rfl
    | some ni =>
      cases hj : addrs[j]? with
      | none => rfl
      | some nj => simp only [hcp ni (List.mem_of_getElem? hi), hcp nj (List.mem_of_getElem? hj)]

theorem distance_local {L : Layout} (hL : L.Ok C.sz) {b b' : Bytes} (p : Bytes) (a : Nat)
    (h : ∀ j, j < L.nodeSize → b (a + j) = b' (a + j)) :
    Angular.distance (L := L) C p 0 b a = Angular.distance (L := L) C p 0 b' a := by
  have hsize := hL.size_eq
  unfold Angular.distance
  congr 1
  · apply Node.norm_congr
    intro j hj
    have h5 := h (L.szIX + j) (by have := hL.norm_fits; have := hL.three_le; omega)
    simpa [Nat.add_assoc] using h5
  · apply Node.vec_congr
    intro j hj
    have h5 := h (L.offV + j) (by omega)
    simpa [Nat.add_assoc] using h5

theorem angular_wf (he : Externals N sortIds sortP) {k f : Nat} (hk : k = 4 ∨ k = 8)
    (hsz : C.sz = 4 ∨ C.sz = 8) (hf : 3 * k + C.sz + f * C.sz < 2 ^ (8 * k)) :
    (angularCfg N C R sortIds sortP k f).WF := by
  have hL : (angularLayout k C.sz f).Ok C.sz := angularLayout_ok hk hsz hf
  constructor
  · exact hL
  · refine ⟨C.sz, hL.norm_fits, ?_, ?_⟩
    · intro b a x hx
      exact Node.setNorm_frame C b a _ x hx
    · intro b a b' a' hv j hj
      show Node.setNorm _ C b a _ _ = Node.setNorm _ C b' a' _ _
      unfold Node.setNorm
      have hlen := C.enc_length
      have hv' : Node.vec (angularLayout k C.sz f) C b a = Node.vec (angularLayout k C.sz f) C b' a' := hv
      simp only [angularCfg]
      rw [writeBytes_inside _ _ _ _ (by rw [hlen]; exact hj), writeBytes_inside _ _ _ _ (by rw [hlen]; exact hj)]
      simp only [hv']
  · intro b n x _; rfl
  · intro b a b' a' d e d' e' h h'
    show Angular.distance _ _ _ _ _ = Angular.distance _ _ _ _ _
    unfold Angular.distance
    have h1 := sameItem_norm (c := angularCfg N C R sortIds sortP k f) hL h
    have h2 := sameItem_norm (c := angularCfg N C R sortIds sortP k f) hL h'
    have h3 := h.1
    have h4 := h'.1
    simp only [angularCfg] at h1 h2 h3 h4 ⊢
    rw [h1, h2, h3, h4]
  · intro b a b' a' v h
    show Angular.margin _ _ _ _ = Angular.margin _ _ _ _
    unfold Angular.margin
    have : Node.vec (angularLayout k C.sz f) C b a = Node.vec (angularLayout k C.sz f) C b' a' := by
      apply Node.vec_congr
      intro j hj
      have h5 := h ((angularLayout k C.sz f).offV + j) (by
        have := hL.size_eq
        show _ < (angularLayout k C.sz f).nodeSize
        omega)
      simpa [Nat.add_assoc] using h5
    simp only [angularCfg, this]; rfl
  · intro b b' addrs r m h
    show Angular.createSplit _ _ _ _ _ = Angular.createSplit _ _ _ _ _
    unfold Angular.createSplit
    have := twoMeans_congr (R := R) hL r true (Angular.normalize (L := angularLayout k C.sz f) C) (Angular.initNode (L := angularLayout k C.sz f) C) h (distance_local hL)
    simp only [angularCfg] at this ⊢
    rw [this]
  · intro l r h; exact imbalanceLe99_pos l r h
  · exact he.ids_perm
  · exact he.ids_sorted
  · intro l m
    exact Srt.partialSortSlice_perm he.pairs.perm (pairLess N) l 0 m l.length le_rfl
  · intro l m hok hm
    exact partialSort_contract he l m hok hm

theorem foldl_frame {α : Type} (g : Bytes → α → Bytes) (x : Nat) (l : List α)
    (h : ∀ b, ∀ i ∈ l, g b i x = b x) (b : Bytes) : (l.foldl g b) x = b x := by
  induction l generalizing b with
  | nil => rfl
  | cons i l ih =>
    rw [List.foldl_cons, ih (fun b j hj => h b j (by simp [hj])), h b i (by simp)]

theorem dotLayout_off {k sz f : Nat} (hsz : 0 < sz) : 3 * k + sz ≤ (dotLayout k sz f).offV := by
  have := alignUp_ge (3 * k) sz hsz
  show 3 * k + sz ≤ alignUp (3 * k) sz + sz
  omega

theorem dot_preProcess_frame {k f : Nat} (hsz : 0 < C.sz) (b : Bytes) (n x : Nat)
    (h : ∀ i, i < n → ¬ ((dotLayout k C.sz f).addr i + (dotLayout k C.sz f).offV - C.sz ≤ x ∧
      x < (dotLayout k C.sz f).addr i + (dotLayout k C.sz f).offV)) :
    DotProduct.preProcess (L := dotLayout k C.sz f) C b n x = b x := by
  have hoff := dotLayout_off (k := k) (f := f) hsz
  have key : ∀ (v : N.V) (b : Bytes) (i : Nat), i < n →
      Node.setDotFactor (dotLayout k C.sz f) C b ((dotLayout k C.sz f).addr i) v x = b x := by
    intro v b i hi
    apply Node.setDotFactor_frame _ _ _ _ _ (by omega)
    have := h i hi
    omega
  unfold DotProduct.preProcess
  dsimp only
  rw [foldl_frame _ _ _ (fun b i hi => key _ b i (List.mem_range.1 hi)),
    foldl_frame _ _ _ (fun b i hi => key _ b i (List.mem_range.1 hi))]

theorem dot_wf (he : Externals N sortIds sortP) {k f : Nat} (hk : k = 4 ∨ k = 8)
    (hsz : C.sz = 4 ∨ C.sz = 8) (hf : 3 * k + 2 * C.sz + f * C.sz < 2 ^ (8 * k)) :
    (dotCfg N C R sortIds sortP k f).WF := by
  have hL : (dotLayout k C.sz f).Ok C.sz := dotLayout_ok hk hsz hf
  have hoff := dotLayout_off (k := k) (sz := C.sz) (f := f) (by omega)
  constructor
  · exact hL
  · exact ⟨0, by omega, fun b a x _ => rfl, fun b a b' a' _ j hj => by omega⟩
  · intro b n x h
    apply dot_preProcess_frame (by omega)
    intro i hi hc
    apply h i hi
    have hk' : (dotCfg N C R sortIds sortP k f).L.szIX = k := rfl
    refine ⟨?_, hc.2⟩
    have h1 := hc.1
    show (dotLayout k C.sz f).addr i + 3 * k ≤ x
    omega
  · intro b a b' a' d e d' e' h h'
    show Angular.distance _ _ _ _ _ = Angular.distance _ _ _ _ _
    unfold Angular.distance
    have h1 := sameItem_norm (c := dotCfg N C R sortIds sortP k f) hL h
    have h2 := sameItem_norm (c := dotCfg N C R sortIds sortP k f) hL h'
    have h3 := h.1
    have h4 := h'.1
    simp only [dotCfg] at h1 h2 h3 h4 ⊢
    rw [h1, h2, h3, h4]
  · intro b a b' a' v h
    show DotProduct.margin _ _ _ _ = DotProduct.margin _ _ _ _
    unfold DotProduct.margin
    have hv : Node.vec (dotLayout k C.sz f) C b a = Node.vec (dotLayout k C.sz f) C b' a' := by
      apply Node.vec_congr
      intro j hj
      have h5 := h ((dotLayout k C.sz f).offV + j) (by
        have := hL.size_eq
        show _ < (dotLayout k C.sz f).nodeSize
        omega)
      simpa [Nat.add_assoc] using h5
    have hd : Node.dotFactor (dotLayout k C.sz f) C b a = Node.dotFactor (dotLayout k C.sz f) C b' a' := by
      apply Node.dotFactor_congr
      intro j hj
      have h5 := h ((dotLayout k C.sz f).offV - C.sz + j) (by
        have := hL.size_eq
        show _ < (dotLayout k C.sz f).nodeSize
        omega)
      have e1 : a + (dotLayout k C.sz f).offV - C.sz + j = a + ((dotLayout k C.sz f).offV - C.sz + j) := by omega
      have e2 : a' + (dotLayout k C.sz f).offV - C.sz + j = a' + ((dotLayout k C.sz f).offV - C.sz + j) := by omega
      rw [e1, e2]; exact h5
    simp only [dotCfg, hv, hd]; rfl
  · intro b b' addrs r m h
    show DotProduct.createSplit _ _ _ _ _ = DotProduct.createSplit _ _ _ _ _
    unfold DotProduct.createSplit
    have := twoMeans_congr (R := R) hL r true (DotProduct.normalize (L := dotLayout k C.sz f) C) (fun b _ => b) h (distance_local hL)
    simp only [dotCfg] at this ⊢
    rw [this]
  · intro l r h; exact imbalanceLe99_pos l r h
  · exact he.ids_perm
  · exact he.ids_sorted
  · intro l m
    exact Srt.partialSortSlice_perm he.pairs.perm (pairLess N) l 0 m l.length le_rfl
  · intro l m hok hm
    exact partialSort_contract he l m hok hm

end

/-- The four vector/distance combinations, both index types, every vector length whose node size is a `TIX`. -/
theorem angular32_wf {k f : Nat} (hk : k = 4 ∨ k = 8) (hf : 3 * k + 4 + f * 4 < 2 ^ (8 * k)) :
    (angular32 k f).WF := angular_wf (externals_concrete ieee32_lawful) hk (Or.inl rfl) hf

theorem angular64_wf {k f : Nat} (hk : k = 4 ∨ k = 8) (hf : 3 * k + 8 + f * 8 < 2 ^ (8 * k)) :
    (angular64 k f).WF := angular_wf (externals_concrete ieee64_lawful) hk (Or.inr rfl) hf

theorem dot32_wf {k f : Nat} (hk : k = 4 ∨ k = 8) (hf : 3 * k + 8 + f * 4 < 2 ^ (8 * k)) :
    (dot32 k f).WF := dot_wf (externals_concrete ieee32_lawful) hk (Or.inl rfl) hf

theorem dot64_wf {k f : Nat} (hk : k = 4 ∨ k = 8) (hf : 3 * k + 16 + f * 8 < 2 ^ (8 * k)) :
    (dot64 k f).WF := dot_wf (externals_concrete ieee64_lawful) hk (Or.inr rfl) hf

end Annoy
