import Verif.Proof.Items
import Verif.Proof.Instances
import Verif.Spec.Tree
/-!
# C01, C03, C05, C06, C07: items and node layout
-/
namespace Annoy

/-! ### C05 – C07: layout -/

/-- **C05.** Two different node numbers below `n` occupy disjoint byte ranges, each inside a block of
`n` nodes; addresses are not wrapped.  Only assumption: `n` nodes fit into the range of the index
type. -/
theorem C05_disjoint (L : Layout) (n : Nat) (hfit : n * L.nodeSize < L.range) (i j : Nat)
    (hi : i < n) (hj : j < n) (hij : i ≠ j) :
    L.addr i + L.nodeSize ≤ n * L.nodeSize ∧ L.addr j + L.nodeSize ≤ n * L.nodeSize ∧
    (L.addr i + L.nodeSize ≤ L.addr j ∨ L.addr j + L.nodeSize ≤ L.addr i) := by
  have key : ∀ k, k < n → k * L.nodeSize + L.nodeSize ≤ n * L.nodeSize := by
    intro k hk
    have := Nat.mul_le_mul_right L.nodeSize hk
    rwa [Nat.succ_mul] at this
  have hlt : ∀ k, k < n → L.addr k = k * L.nodeSize := by
    intro k hk
    by_cases h0 : L.nodeSize = 0
    · simp [Layout.addr, Layout.wrap, h0]
    · apply L.addr_eq
      have := key k hk
      omega
  rw [hlt i hi, hlt j hj]
  refine ⟨key i hi, key j hj, ?_⟩
  rcases Nat.lt_or_gt_of_ne hij with h | h
  · left
    have := Nat.mul_le_mul_right L.nodeSize h
    rwa [Nat.succ_mul] at this
  · right
    have := Nat.mul_le_mul_right L.nodeSize h
    rwa [Nat.succ_mul] at this

/-- The bound is needed: with `uint32` indexes and nodes of 65536 bytes, nodes 0 and 65536 share their
memory. -/
example : (Layout.mk 4 16381 12 65536 16383).addr 65536 = (Layout.mk 4 16381 12 65536 16383).addr 0 := by
  decide +kernel

example : ∃ n i j, n * (angularLayout 4 4 3).nodeSize < (angularLayout 4 4 3).range ∧ i < n ∧ j < n ∧ i ≠ j :=
  ⟨1000, 3, 999, by decide +kernel, by omega, by omega, by omega⟩

/-- The layouts of the repository: `angular` or `dotproduct` nodes, `uint32` or `uint64` indexes,
`float32` or `float64` vectors, every vector length for which the node size is a value of the index
type. -/
inductive RepoLayout : Layout → Nat → Prop where
  | angular (k sz f : Nat) (hk : k = 4 ∨ k = 8) (hsz : sz = 4 ∨ sz = 8)
      (hf : 3 * k + sz + f * sz < 2 ^ (8 * k)) : RepoLayout (angularLayout k sz f) sz
  | dot (k sz f : Nat) (hk : k = 4 ∨ k = 8) (hsz : sz = 4 ∨ sz = 8)
      (hf : 3 * k + 2 * sz + f * sz < 2 ^ (8 * k)) : RepoLayout (dotLayout k sz f) sz

theorem RepoLayout.ok {L : Layout} {sz : Nat} (h : RepoLayout L sz) : L.Ok sz := by
  cases h with
  | angular k sz f hk hsz hf => exact angularLayout_ok hk hsz hf
  | dot k sz f hk hsz hf => exact dotLayout_ok hk hsz hf

/-- **C07.** `MaxNumChildren` child numbers fit behind the descendant count of a node, and one more does
not; at least two fit. -/
theorem C07_max_children {L : Layout} {sz : Nat} (h : RepoLayout L sz) :
    L.szIX + L.K * L.szIX ≤ L.nodeSize ∧ L.nodeSize < L.szIX + (L.K + 1) * L.szIX ∧ 2 ≤ L.K :=
  ⟨h.ok.K_fits, h.ok.K_max, h.ok.K_ge⟩

/-- **C07**, as memory: setting any `MaxNumChildren` or fewer children changes no byte outside the
node, and with one child more there is a byte outside the node that can change. -/
theorem C07_children_inside {L : Layout} {sz : Nat} (h : RepoLayout L sz) :
    (∀ (b : Bytes) (a : Nat) (cs : List Nat), cs.length ≤ L.K → ∀ x, (x < a ∨ a + L.nodeSize ≤ x) →
      Node.setChildren L b a cs x = b x) ∧
    (∀ a : Nat, ∃ (b : Bytes) (cs : List Nat), cs.length = L.K + 1 ∧
      ∃ x, a + L.nodeSize ≤ x ∧ Node.setChildren L b a cs x ≠ b x) := by
  have hfit := h.ok.K_fits
  have hmax := h.ok.K_max
  constructor
  · intro b a cs hcs x hx
    apply Node.setChildren_frame
    have : cs.length * L.szIX ≤ L.K * L.szIX := Nat.mul_le_mul_right _ hcs
    rcases hx with hx | hx
    · left; omega
    · right; omega
  · intro a
    refine ⟨⟨fun _ => 1⟩, List.replicate (L.K + 1) 0, by simp, a + L.nodeSize, le_rfl, ?_⟩
    have hlen : ((List.replicate (L.K + 1) 0).flatMap (leBytes L.szIX)).length = (L.K + 1) * L.szIX := by
      rw [Node.flatMap_leBytes_length]; simp
    unfold Node.setChildren
    have hall : ∀ y ∈ (List.replicate (L.K + 1) 0).flatMap (leBytes L.szIX), y = (0 : Byte) := by
      intro y hy
      rw [List.mem_flatMap] at hy
      obtain ⟨z, hz, hy⟩ := hy
      rw [(List.mem_replicate.1 hz).2] at hy
      have : ∀ k, ∀ y ∈ leBytes k 0, y = (0 : Byte) := by
        intro k
        induction k with
        | zero => intro y hy; cases hy
        | succ k ih =>
          intro y hy
          rcases List.mem_cons.1 hy with rfl | hy
          · rfl
          · exact ih y hy
      exact this _ y hy
    have e : a + L.nodeSize = a + L.szIX + (L.nodeSize - L.szIX) := by omega
    rw [e, writeBytes_inside _ _ _ _ (by rw [hlen]; omega)]
    rw [hall _ (List.getElem_mem _)]
    show (0 : Byte) ≠ 1
    decide

example : RepoLayout (angularLayout 4 4 3) 4 ∧ (angularLayout 4 4 3).K = 5 :=
  ⟨.angular 4 4 3 (Or.inl rfl) (Or.inl rfl) (by decide), by decide⟩

/-- **C06.** Every field of a node reads back what was written, and writing one field leaves the others
alone.  `desc`/`children`/`norm`/`vector` are the four accessor pairs of a node; the norm shares the
two child slots by design, so norm and children are only separate from the other two. Writes never
touch another node. -/
theorem C06_node_fields {L : Layout} {sz : Nat} (h : RepoLayout L sz) {V : Type} (C : Codec V) (hC : C.sz = sz)
    (b : Bytes) (a : Nat) :
    -- read back
    (∀ n, n < L.range → Node.nDesc L (Node.setNDesc L b a n) a = n) ∧
    (∀ cs : List Nat, cs.length ≤ L.K → (∀ x ∈ cs, x < L.range) → ∀ k (hk : k < cs.length),
      Node.child L (Node.setChildren L b a cs) a k = cs[k]) ∧
    (∀ x : V, Node.norm L C (Node.setNorm L C b a x) a = x) ∧
    (∀ v : List V, v.length = L.f → Node.vec L C (Node.setVec L C b a v) a = v) ∧
    -- the descendant count is separate from everything else
    (∀ n, Node.vec L C (Node.setNDesc L b a n) a = Node.vec L C b a ∧
      Node.norm L C (Node.setNDesc L b a n) a = Node.norm L C b a ∧
      ∀ k, Node.child L (Node.setNDesc L b a n) a k = Node.child L b a k) ∧
    (∀ cs, Node.nDesc L (Node.setChildren L b a cs) a = Node.nDesc L b a) ∧
    (∀ x, Node.nDesc L (Node.setNorm L C b a x) a = Node.nDesc L b a) ∧
    (∀ v, Node.nDesc L (Node.setVec L C b a v) a = Node.nDesc L b a) ∧
    -- norm and the first two children are separate from the vector
    (∀ x, Node.vec L C (Node.setNorm L C b a x) a = Node.vec L C b a) ∧
    (∀ cs : List Nat, cs.length ≤ 2 → Node.vec L C (Node.setChildren L b a cs) a = Node.vec L C b a) ∧
    (∀ v, Node.norm L C (Node.setVec L C b a v) a = Node.norm L C b a ∧
      ∀ k, k < 2 → Node.child L (Node.setVec L C b a v) a k = Node.child L b a k) ∧
    -- nothing outside the node changes
    (∀ x, (x < a ∨ a + L.nodeSize ≤ x) →
      (∀ n, Node.setNDesc L b a n x = b x) ∧
      (∀ cs : List Nat, cs.length ≤ L.K → Node.setChildren L b a cs x = b x) ∧
      (∀ y, Node.setNorm L C b a y x = b x) ∧
      (∀ v : List V, v.length = L.f → Node.setVec L C b a v x = b x)) := by
  have hL := h.ok
  subst hC
  have h1 := hL.szIX_pos
  have h2 := hL.norm_fits
  have h3 := hL.offV_ge
  have h4 := hL.size_eq
  have h5 := hL.K_fits
  refine ⟨fun n hn => Node.nDesc_setNDesc b a n hn, ?_, fun x => Node.norm_setNorm C b a x,
    fun v hv => Node.vec_setVec C b a v hv, ?_, ?_, ?_, ?_, ?_, ?_, ?_, ?_⟩
  · intro cs hcs hr k hk
    exact Node.child_setChildren b a cs k hk (hr _ (List.getElem_mem hk))
  · intro n
    refine ⟨?_, ?_, ?_⟩
    · apply Node.vec_congr; intro j hj; apply Node.setNDesc_frame; omega
    · apply Node.norm_congr; intro j hj; apply Node.setNDesc_frame; omega
    · intro k
      unfold Node.child
      apply readLE_congr
      intro j hj; apply Node.setNDesc_frame; right
      have := Nat.zero_le (k * L.szIX)
      omega
  · intro cs; apply Node.nDesc_congr; intro j hj; apply Node.setChildren_frame; omega
  · intro x; apply Node.nDesc_congr; intro j hj; apply Node.setNorm_frame; omega
  · intro v; apply Node.nDesc_congr; intro j hj; apply Node.setVec_frame; omega
  · intro x; apply Node.vec_congr; intro j hj; apply Node.setNorm_frame; omega
  · intro cs hcs; apply Node.vec_congr; intro j hj; apply Node.setChildren_frame
    have : cs.length * L.szIX ≤ 2 * L.szIX := Nat.mul_le_mul_right _ hcs
    omega
  · intro v
    refine ⟨?_, ?_⟩
    · apply Node.norm_congr; intro j hj; apply Node.setVec_frame; omega
    · intro k hk
      unfold Node.child
      apply readLE_congr
      intro j hj; apply Node.setVec_frame
      have : k * L.szIX ≤ 1 * L.szIX := Nat.mul_le_mul_right _ (by omega)
      omega
  · intro x hx
    refine ⟨?_, ?_, ?_, ?_⟩
    · intro n; apply Node.setNDesc_frame; omega
    · intro cs hcs; apply Node.setChildren_frame
      have : cs.length * L.szIX ≤ L.K * L.szIX := Nat.mul_le_mul_right _ hcs
      omega
    · intro y; apply Node.setNorm_frame; omega
    · intro v hv; apply Node.setVec_frame; rw [hv]; omega

/-- A concrete node: 3 `float32` values, `uint32` indexes; the dot product factor is separate too. -/
example : Node.nDesc (angularLayout 4 4 3)
    (Node.setVec (angularLayout 4 4 3) (bvCodec 4) (Node.setNDesc (angularLayout 4 4 3) zeros 24 7) 24 [1, 2, 3]) 24 = 7 ∧
    Node.vec (angularLayout 4 4 3) (bvCodec 4)
    (Node.setVec (angularLayout 4 4 3) (bvCodec 4) (Node.setNDesc (angularLayout 4 4 3) zeros 24 7) 24 [1, 2, 3]) 24
      = [1, 2, 3] := by decide +kernel

/-- **C06** for the extra field of dot product nodes: `dot_factor` reads back and is separate from all
other fields. -/
theorem C06_dot_factor {k sz f : Nat} (hk : k = 4 ∨ k = 8) (hsz : sz = 4 ∨ sz = 8)
    (hf : 3 * k + 2 * sz + f * sz < 2 ^ (8 * k)) {V : Type} (C : Codec V) (hC : C.sz = sz) (b : Bytes) (a : Nat) (x : V) :
    Node.dotFactor (dotLayout k sz f) C (Node.setDotFactor (dotLayout k sz f) C b a x) a = x ∧
    Node.nDesc (dotLayout k sz f) (Node.setDotFactor (dotLayout k sz f) C b a x) a = Node.nDesc (dotLayout k sz f) b a ∧
    Node.norm (dotLayout k sz f) C (Node.setDotFactor (dotLayout k sz f) C b a x) a = Node.norm (dotLayout k sz f) C b a ∧
    Node.vec (dotLayout k sz f) C (Node.setDotFactor (dotLayout k sz f) C b a x) a = Node.vec (dotLayout k sz f) C b a ∧
    (∀ j, j < 2 → Node.child (dotLayout k sz f) (Node.setDotFactor (dotLayout k sz f) C b a x) a j
      = Node.child (dotLayout k sz f) b a j) ∧
    (∀ y, (y < a ∨ a + (dotLayout k sz f).nodeSize ≤ y) →
      Node.setDotFactor (dotLayout k sz f) C b a x y = b y) := by
  have hL := dotLayout_ok hk hsz hf
  subst hC
  have hoff := dotLayout_off (k := k) (sz := C.sz) (f := f) (by omega)
  have h2 := hL.norm_fits
  have h4 := hL.size_eq
  have hki : (dotLayout k C.sz f).szIX = k := rfl
  have hfr := fun y h => Node.setDotFactor_frame (L := dotLayout k C.sz f) C b a x y (by omega) h
  refine ⟨Node.dotFactor_setDotFactor C b a x, ?_, ?_, ?_, ?_, ?_⟩
  · apply Node.nDesc_congr; intro j hj; apply hfr; omega
  · apply Node.norm_congr; intro j hj; apply hfr; omega
  · apply Node.vec_congr; intro j hj; apply hfr; omega
  · intro j hj
    unfold Node.child
    apply readLE_congr
    intro i hi; apply hfr
    have : j * k ≤ 1 * k := Nat.mul_le_mul_right _ (by omega)
    rw [hki] at hi ⊢
    omega
  · intro y hy; apply hfr; omega

/-! ### C01: AddItem / GetItem -/

/-- Run a list of `AddItem` calls. -/
def Idx.addAll {c : Cfg} (s : Idx c) : List (Nat × List c.N.V) → Except Err (Idx c)
  | [] => .ok s
  | (i, v) :: rest => do (← s.addItem i v).addAll rest

/-- Specification: the vector of the last call for index `i`. -/
def lastAdded {V : Type} (adds : List (Nat × List V)) (i : Nat) : Option (List V) :=
  (adds.reverse.find? (fun p => p.1 = i)).map Prod.snd

/-- Specification: one more than the largest index. -/
def slotCount {V : Type} (adds : List (Nat × List V)) : Nat :=
  adds.foldr (fun p n => max (p.1 + 1) n) 0

/-- The calls are legal: right vector length, and the index stays inside the address range. -/
def LegalAdds (c : Cfg) (adds : List (Nat × List c.N.V)) : Prop :=
  ∀ p ∈ adds, p.2.length = c.L.f ∧ c.L.Fits (p.1 + 1)

theorem lastAdded_append {V : Type} (a b : List (Nat × List V)) (i : Nat) :
    lastAdded (a ++ b) i = (lastAdded b i).or (lastAdded a i) := by
  unfold lastAdded
  rw [List.reverse_append, List.find?_append]
  cases b.reverse.find? (fun p => p.1 = i) <;> simp

theorem addAll_spec {c : Cfg} (hc : c.WF) (adds : List (Nat × List c.N.V)) :
    ∀ (s : Idx c) (m : Nat → Option (List c.N.V)) (n : Nat), s.ItemInv m n → LegalAdds c adds →
    ∃ s', s.addAll adds = .ok s' ∧
      s'.ItemInv (fun i => (lastAdded adds i).or (m i)) (max n (slotCount adds)) ∧
      s'.roots = s.roots ∧ s'.built = s.built ∧ s'.nNodes = s.nNodes ∧ s'.rng = s.rng := by
  induction adds with
  | nil => intro s m n hs _; exact ⟨s, rfl, by simpa [lastAdded, slotCount] using hs, rfl, rfl, rfl, rfl⟩
  | cons p adds ih =>
    obtain ⟨i, v⟩ := p
    intro s m n hs hl
    have hp := hl (i, v) (by simp)
    obtain ⟨s1, h1, h2, h3, h4, h5, h6⟩ := hs.addItem hc i v hp.1 hp.2
    obtain ⟨s2, g1, g2, g3, g4, g5, g6⟩ := ih s1 _ _ h2 (fun q hq => hl q (by simp [hq]))
    refine ⟨s2, ?_, ?_, g3.trans h3, g4.trans h4, g5.trans h5, g6.trans h6⟩
    · simp only [Idx.addAll, h1]; exact g1
    · have e1 : (fun j => (lastAdded ((i, v) :: adds) j).or (m j))
          = fun j => (lastAdded adds j).or (if j = i then some v else m j) := by
        funext j
        have : lastAdded ((i, v) :: adds) j = lastAdded ([(i, v)] ++ adds) j := rfl
        rw [this, lastAdded_append]
        have h7 : lastAdded [(i, v)] j = if j = i then some v else none := by
          unfold lastAdded
          by_cases hji : j = i
          · subst hji; simp
          · simp [hji, Ne.symm hji]
        rw [h7]
        cases lastAdded adds j <;> by_cases hji : j = i <;> simp [hji]
      have e2 : max n (slotCount ((i, v) :: adds)) = max (max n (i + 1)) (slotCount adds) := by
        simp only [slotCount, List.foldr_cons]; omega
      rw [e1, e2]; exact g2

/-- Legal calls on an empty index. -/
theorem adds_from_empty {c : Cfg} (hc : c.WF) (s0 : Idx c) (h0 : s0.ItemInv (fun _ => none) 0) (w : World)
    (adds : List (Nat × List c.N.V)) (hl : LegalAdds c adds) :
    ∃ s, s0.addAll adds = .ok s ∧ s.nItems = slotCount adds ∧
      (∀ i v, lastAdded adds i = some v → s.getItem w i = .ok v) ∧
      (∀ i, IsItem c.L (s.mem w).get s.nItems i ↔ (lastAdded adds i).isSome) := by
  obtain ⟨s, h1, h2, _⟩ := addAll_spec hc adds _ _ _ h0 hl
  have h2' : s.ItemInv (fun i => lastAdded adds i) (slotCount adds) := by simpa using h2
  clear h2
  have hd : ∀ i, i < slotCount adds → s.mem w = ⟨s.alloc.size, s.alloc.data⟩ := by
    intro i hi
    have := h2'.memOK.nodes (by have := h2'.n_le; omega)
    simp [Idx.mem, this, Alloc.block]
  have hbm : ∀ i, i < slotCount adds → s.bmem = s.mem w := by
    intro i hi
    have := h2'.memOK.nodes (by have := h2'.n_le; omega)
    simp [Idx.mem, Idx.bmem, this]
  refine ⟨s, h1, h2'.nItems, ?_, ?_⟩
  · intro i v hv
    have hi := h2'.bound i v hv
    have hg := (h2'.memOK.getNode (i := i) (by have := h2'.n_le; omega)).1
    rw [hbm i hi] at hg
    have hit := (h2'.items i v hv).vec
    simp only [Idx.getItem, hg, bind, Except.bind]
    rw [hd i hi]
    exact congrArg _ hit
  · intro i
    constructor
    · intro hi
      by_contra hc'
      have hnone : lastAdded adds i = none := by simpa using hc'
      have hlt : i < slotCount adds := by have := hi.1; rwa [h2'.nItems] at this
      have h0 := h2'.gaps i hlt hnone
      have hnd : ndAt c.L s.alloc.data i = 0 := by
        apply readLE_zero
        intro j hj
        exact h0 j (by have := hc.layout.three_le; have := hc.layout.szIX_pos; omega)
      have := hi.2
      rw [hd i hlt] at this
      exact absurd (this.symm.trans hnd) (by decide)
    · intro hi
      obtain ⟨v, hv⟩ := Option.isSome_iff_exists.1 hi
      have hlt := h2'.bound i v hv
      refine ⟨by rw [h2'.nItems]; exact hlt, ?_⟩
      rw [hd i hlt]
      exact (h2'.items i v hv).nDesc

/-- **C01.** After any legal sequence of `AddItem` calls on a new index (any pre-allocation hint), the
calls succeed, `GetItem(i)` returns the vector of the last `AddItem(i, ·)` – the very same values, hence
the same bits –, the index has exactly `max index + 1` slots, and a slot is an item exactly if its
index was added. -/
theorem C01_get_item {c : Cfg} (hc : c.WF) (r : c.R.σ) (hint : Nat) (w : World)
    (adds : List (Nat × List c.N.V)) (hl : LegalAdds c adds) :
    ∃ s, (Idx.new c r hint).addAll adds = .ok s ∧ s.nItems = slotCount adds ∧
      (∀ i v, lastAdded adds i = some v → s.getItem w i = .ok v) ∧
      (∀ i, IsItem c.L (s.mem w).get s.nItems i ↔ (lastAdded adds i).isSome) :=
  adds_from_empty hc _ (Idx.ItemInv.new c hc.layout r hint) w adds hl

/-- Concrete: three calls with a gap and a repeat on a `float32`/`uint32` index of length 2. -/
example : (angular32 4 2).WF ∧ LegalAdds (angular32 4 2)
    [(3, [x32 1, x32 2]), (0, [x32 5, x32 6]), (3, [x32 7, x32 8])] ∧
    lastAdded [(3, [x32 1, x32 2]), (0, [x32 5, x32 6]), (3, [x32 7, x32 8])] 3 = some [x32 7, x32 8] ∧
    lastAdded [(3, [x32 1, x32 2]), (0, [x32 5, x32 6]), (3, [x32 7, x32 8])] 1 = none := by
  refine ⟨angular32_wf (Or.inl rfl) (by decide), ?_, by decide +kernel, by decide +kernel⟩
  intro p hp
  simp only [List.mem_cons, List.not_mem_nil, or_false] at hp
  rcases hp with rfl | rfl | rfl <;> exact ⟨rfl, by show _ < _; decide +kernel⟩

end Annoy
