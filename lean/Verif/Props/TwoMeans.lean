import Verif.Proof.TwoMeans
import Verif.Props.DotIndex
import Verif.Props.Separation
/-!
# Hyperplanes are made of two running means (C109)

`C109_angular` and `C109_dot` say, bit for bit in the arithmetic of the index, that the hyperplane `CreateSplit` leaves in a node is the one of the
specification `Means.normal`, from the draws of the generator.  `C109_mean` says what these means are in exact arithmetic.
-/
namespace Annoy
open Means

section
variable {N : Num} {R : Rng} {C : Codec N.V} {L : Layout}

/-- The start point made from the vector `v`: normalised, after `CopyNode` has kept the components that end before byte `f` of the node and has lost the
components that begin behind it.  (At most one component is cut in two.) -/
def StartFrom (L : Layout) (C : Codec N.V) (v p : List N.V) : Prop :=
  ∃ w : List N.V, p = Vec.normalize N w ∧ w.length = L.f ∧
    (∀ z, L.offV + (z + 1) * C.sz ≤ L.f → w[z]? = v[z]?) ∧
    ∀ z, z < L.f → L.f ≤ L.offV + z * C.sz → w[z]? = some (C.dec (List.replicate C.sz 0))

theorem startVec_from (hL : L.Ok C.sz) {mem : Bytes} {a : Nat} :
    StartFrom L C (Node.vec L C mem a) (Vec.normalize N (startVec L C mem a)) := by
  have hsz := hL.sz_pos
  refine ⟨_, rfl, by simp [startVec, Node.vec], fun z hz => ?_, fun z hz hcut => ?_⟩
  · have hzf : z < L.f := by
      have h1 : z + 1 ≤ (z + 1) * C.sz := Nat.le_mul_of_pos_right _ hsz
      omega
    unfold startVec Node.vec
    rw [List.getElem?_map, List.getElem?_map, List.getElem?_range hzf, Option.map_some, Option.map_some]
    congr 2
    apply readBytes_congr
    intro j hj
    have e : (z + 1) * C.sz = z * C.sz + C.sz := Nat.succ_mul _ _
    have := Node.copyNode_inside zeros 0 mem a L.f (L.offV + z * C.sz + j) (by omega)
    simpa [Nat.add_assoc] using this
  · unfold startVec Node.vec
    rw [List.getElem?_map, List.getElem?_range hz, Option.map_some]
    congr 2
    refine List.eq_replicate_iff.2 ⟨by simp [readBytes], fun y hy => ?_⟩
    obtain ⟨j, -, rfl⟩ := List.mem_map.1 hy
    exact Node.copyNode_frame _ _ _ _ _ _ (Or.inr (by omega))

/-- The hyperplane `w` comes from the vectors `vs` by draws of the generator in state `r`: two different positions are drawn as starts, then two
hundred positions, and the means see the vectors there. -/
def SplitFrom (L : Layout) (C : Codec N.V) (R : Rng) (vs : List (List N.V)) (r : R.σ) (w : List N.V) (r' : R.σ) : Prop :=
  ∃ (i j : Nat) (ri rj : R.σ) (v u p q : List N.V) (ks : List Nat) (seen : List (List N.V)),
    R.nextIndex r vs.length = .ok (i, ri) ∧ R.nextIndex ri (vs.length - 1) = .ok (j, rj) ∧
    vs[i]? = some v ∧ vs[if i ≤ j then j + 1 else j]? = some u ∧ StartFrom L C v p ∧ StartFrom L C u q ∧
    ks.length = 200 ∧ Drawn R vs.length rj ks r' ∧ ks.map (vs[·]?) = seen.map some ∧
    w = Means.normal (angularFormula N) p q seen

theorem split_from (hN : N.MulLaws) (hL : L.Ok C.sz) {mem : Bytes} {addrs : List Nat} (hmem : ∀ a ∈ addrs, CachedNorm L C mem a)
    {normalize init : Bytes → Nat → Bytes} {I : Bytes → Prop} (hI : KeepsCentroid L C init I)
    (hstart : ∀ a ∈ addrs, I (init (normalize (Node.copyNode zeros 0 mem a L.f) 0) 0))
    (hnorm : ∀ b, Node.vec L C (normalize b 0) 0 = Vec.normalize N (Node.vec L C b 0))
    {r : R.σ} {p q : Bytes} {r' : R.σ}
    (h : twoMeans (L := L) C mem addrs r true (Angular.distance (L := L) C) normalize init = .ok (p, q, r')) :
    SplitFrom L C R (addrs.map (Node.vec L C mem)) r (Vec.normalize N (List.zipWith N.sub (Node.vec L C p 0) (Node.vec L C q 0))) r' := by
  obtain ⟨i, j, ni, nj, r1, ks, nks, hpick, hi, hj, hlen, hdr, hks, he⟩ := twoMeans_after hN hmem hI hstart (fun a _ => hnorm _) h
  unfold twoMeansPick at hpick
  cases h1 : R.nextIndex r addrs.length with
  | error e => rw [h1] at hpick; cases hpick
  | ok x =>
    obtain ⟨i1, ri⟩ := x
    rw [h1] at hpick
    cases h2 : R.nextIndex ri (addrs.length - 1) with
    | error e => simp only [bind, Except.bind, h2] at hpick; cases hpick
    | ok x =>
      obtain ⟨j1, rj⟩ := x
      simp only [bind, Except.bind, h2, Except.ok.injEq, Prod.mk.injEq] at hpick
      obtain ⟨rfl, rfl, rfl⟩ := hpick
      refine ⟨i1, j1, ri, rj, Node.vec L C mem ni, Node.vec L C mem nj, _, _, ks, nks.map (Node.vec L C mem), by rw [List.length_map]; exact h1,
        by rw [List.length_map]; exact h2, by rw [List.getElem?_map, hi]; rfl, ?_, startVec_from hL, startVec_from hL, hlen,
        by rw [List.length_map]; exact hdr, ?_, ?_⟩
      · rw [List.getElem?_map]
        have : (if i1 ≤ j1 then j1 + 1 else j1) = if j1 ≥ i1 then j1 + 1 else j1 := rfl
        rw [this, hj]
        rfl
      · have : ks.map ((addrs.map (Node.vec L C mem))[·]?) = (ks.map (addrs[·]?)).map (Option.map (Node.vec L C mem)) := by
          rw [List.map_map]
          apply List.map_congr_left
          intro k _
          simp
        rw [this, hks, List.map_map, List.map_map]
        rfl
      · unfold Means.normal
        have e1 := congrArg Prod.fst he
        have e2 := congrArg Prod.snd he
        dsimp only at e1 e2
        rw [e1, e2]

theorem angular_keeps (hL : L.Ok C.sz) :
    KeepsCentroid L C (Angular.initNode (L := L) C) (fun b => Node.norm L C b 0 = Vec.dot N (Node.vec L C b 0) (Node.vec L C b 0)) where
  cached p h := .inl h
  vec b := Angular.vec_initNode hL b
  keep p v h hv := by
    rw [Angular.vec_initNode hL]
    unfold Angular.initNode
    rw [Node.norm_setNorm]

theorem dot_keeps (hL : L.Ok C.sz) :
    KeepsCentroid L C (fun b _ => b) (fun b => N.eq (Node.norm L C b 0) N.zero = true) where
  cached p h := .inr h
  vec b := rfl
  keep p v h hv := by
    have e : Node.norm L C (Node.setVec L C p 0 v) 0 = Node.norm L C p 0 := by
      apply Node.norm_congr
      intro j hj
      have h1 := hL.norm_fits
      have h2 := hL.offV_ge
      exact Node.setVec_frame C _ _ _ _ (.inl (by omega))
    rw [e]
    exact h

end

section
variable {N : Num} {R : Rng} {C : Codec N.V} {sortIds : List Nat → List Nat} {sortP : List (N.V × Nat) → List (N.V × Nat)} {k f : Nat}

theorem itemAt_cached_angular (hL : (angularLayout k C.sz f).Ok C.sz) {b : Bytes} {a : Nat} {v : List N.V} (hv : v.length = f)
    (h : ItemAt (angularCfg N C R sortIds sortP k f) b a v) : CachedNorm (angularLayout k C.sz f) C b a := by
  left
  have e := Node.vec_setVec (L := angularLayout k C.sz f) C zeros 0 v hv
  have key : Node.norm (angularLayout k C.sz f) C (canon (angularCfg N C R sortIds sortP k f) v) 0 = Vec.dot N v v :=
    (Node.norm_setNorm (L := angularLayout k C.sz f) C _ 0 _).trans (congrArg₂ (Vec.dot N) e e)
  have hvec : Node.vec (angularLayout k C.sz f) C b a = v := h.vec
  rw [hvec, ← key]
  apply Node.norm_congr
  intro j hj
  have h1 := hL.norm_fits
  have := h.head (k + j) (Nat.le_add_right _ _) (by
    show k + j < 3 * k
    have : C.sz ≤ 2 * k := h1
    omega)
  rw [Nat.add_assoc, Nat.add_assoc, Nat.zero_add]
  exact this

theorem itemAt_blank_dot (hL : (dotLayout k C.sz f).Ok C.sz) {b : Bytes} {a : Nat} {v : List N.V}
    (h : ItemAt (dotCfg N C R sortIds sortP k f) b a v) (j : Nat) (h1 : k ≤ j) (h2 : j < 3 * k) : b (a + j) = 0 := by
  rw [h.head j h1 h2]
  show Node.setVec (dotLayout k C.sz f) C zeros 0 v j = 0
  have : 3 * k ≤ (dotLayout k C.sz f).offV := hL.offV_ge
  rw [Node.setVec_frame C _ _ _ _ (.inl (by omega))]
  rfl

theorem norm_blank {L : Layout} {b : Bytes} {a : Nat} (h : ∀ j, j < C.sz → b (a + L.szIX + j) = 0) :
    Node.norm L C b a = C.dec (List.replicate C.sz 0) := by
  unfold Node.norm
  congr 1
  refine List.eq_replicate_iff.2 ⟨by simp [readBytes], fun y hy => ?_⟩
  obtain ⟨j, hj, rfl⟩ := List.mem_map.1 hy
  exact h j (List.mem_range.1 hj)

/-- **C109**, angular indexes: the hyperplane of a split of items is the normal vector of the specification. -/
theorem C109_angular (hN : N.MulLaws) (hL : (angularLayout k C.sz f).Ok C.sz) {mem m m' : Bytes} {addrs : List Nat} {vs : List (List N.V)}
    {r r' : R.σ} (hlen : ∀ v ∈ vs, v.length = f) (hitems : List.Forall₂ (ItemAt (angularCfg N C R sortIds sortP k f) mem) addrs vs)
    (h : (angularCfg N C R sortIds sortP k f).D.createSplit mem addrs r m = .ok (m', r')) :
    SplitFrom (angularLayout k C.sz f) C R vs r (Node.vec (angularLayout k C.sz f) C m' 0) r' := by
  obtain ⟨p, q, h1, h2⟩ := C50_create_split (L := angularLayout k C.sz f) C h
  have hvs : addrs.map (Node.vec (angularLayout k C.sz f) C mem) = vs := by
    clear h h1 h2 hlen
    induction hitems with
    | nil => rfl
    | cons ha _ ih => rw [List.map_cons, ih]; exact congrArg (· :: _) ha.vec
  have hmem : ∀ a ∈ addrs, CachedNorm (angularLayout k C.sz f) C mem a := by
    clear h h1 h2 hvs
    induction hitems with
    | nil => intro a ha; simp at ha
    | cons ha _ ih =>
      intro a h
      rcases List.mem_cons.1 h with rfl | h
      · exact itemAt_cached_angular hL (hlen _ (by simp)) ha
      · exact ih (fun v hv => hlen v (by simp [hv])) a h
  rw [h2]
  have := split_from hN hL hmem (angular_keeps hL) (fun a _ => ?_) (fun b => Angular.vec_normalize b) h1
  · rwa [hvs] at this
  · rw [Angular.vec_initNode hL]
    unfold Angular.initNode
    rw [Node.norm_setNorm]

/-- **C109**, dot product indexes: the same specification; the dot factor plays no part. -/
theorem C109_dot (hN : N.MulLaws) (hz : N.eq (C.dec (List.replicate C.sz 0)) N.zero = true) (hL : (dotLayout k C.sz f).Ok C.sz)
    {mem m m' : Bytes} {addrs : List Nat} {vs : List (List N.V)}
    {r r' : R.σ} (hitems : List.Forall₂ (ItemAt (dotCfg N C R sortIds sortP k f) mem) addrs vs)
    (h : (dotCfg N C R sortIds sortP k f).D.createSplit mem addrs r m = .ok (m', r')) :
    SplitFrom (dotLayout k C.sz f) C R vs r (Node.vec (dotLayout k C.sz f) C m' 0) r' := by
  have hoff : 3 * k + C.sz ≤ (dotLayout k C.sz f).offV := by
    show 3 * k + C.sz ≤ alignUp (3 * k) C.sz + C.sz
    have := alignUp_ge (3 * k) C.sz hL.sz_pos
    omega
  have hsz : C.sz ≤ (dotLayout k C.sz f).offV := by omega
  have hfit : C.sz ≤ 2 * k := hL.norm_fits
  obtain ⟨p, q, h1, h2⟩ := C50_create_split_dot (L := dotLayout k C.sz f) C hsz h
  have hvs : addrs.map (Node.vec (dotLayout k C.sz f) C mem) = vs := by
    clear h h1 h2
    induction hitems with
    | nil => rfl
    | cons ha _ ih => rw [List.map_cons, ih]; exact congrArg (· :: _) ha.vec
  have hblank : ∀ a ∈ addrs, ∀ j, k ≤ j → j < 3 * k → mem (a + j) = 0 := by
    clear h h1 h2 hvs
    induction hitems with
    | nil => intro a ha; simp at ha
    | cons ha _ ih =>
      intro a h
      rcases List.mem_cons.1 h with rfl | h
      · exact itemAt_blank_dot hL ha
      · exact ih a h
  have hmem : ∀ a ∈ addrs, CachedNorm (dotLayout k C.sz f) C mem a := by
    intro a ha
    right
    rw [norm_blank (L := dotLayout k C.sz f) fun j hj => ?_]
    · exact hz
    · have := hblank a ha (k + j) (by omega) (by omega)
      rw [Nat.add_assoc]
      exact this
  rw [h2]
  have := split_from hN hL hmem (dot_keeps hL) (fun a ha => ?_) (fun b => DotProduct.vec_normalize hsz b) h1
  · rwa [hvs] at this
  · show N.eq (Node.norm (dotLayout k C.sz f) C (DotProduct.normalize (L := dotLayout k C.sz f) C
      (Node.copyNode zeros 0 mem a f) 0) 0) N.zero = true
    rw [norm_blank (L := dotLayout k C.sz f) fun j hj => ?_]
    · exact hz
    · show DotProduct.normalize (L := dotLayout k C.sz f) C (Node.copyNode zeros 0 mem a f) 0 (0 + k + j) = 0
      have hcopy : Node.copyNode zeros 0 mem a f (0 + k + j) = 0 := by
        by_cases hlt : k + j < f
        · have := Node.copyNode_inside zeros 0 mem a f (k + j) hlt
          rw [Nat.add_assoc, this]
          exact hblank a ha _ (by omega) (by omega)
        · rw [Node.copyNode_frame _ _ _ _ _ _ (Or.inr (by omega))]
          rfl
      unfold DotProduct.normalize
      dsimp only
      split
      · rw [Node.setDotFactor_frame C _ _ _ _ hsz (.inl (by omega)), Node.setVec_frame C _ _ _ _ (.inl (by omega))]
        exact hcopy
      · exact hcopy

end

/-! ### Built indexes -/

section
variable {N : Num} {R : Rng} {C : Codec N.V} {sortIds : List Nat → List Nat} {sortP : List (N.V × Nat) → List (N.V × Nat)} {k f : Nat}
  {numCPU : Nat} {pol : BuildPolicy} {adds : List (Nat × List N.V)} {trees workers : Int}

theorem cut_items {c : Cfg} {numCPU : Nat} {pol : BuildPolicy} {adds : List (Nat × List c.N.V)} {trees workers : Int} {s s' : Idx c}
    (h : Session c numCPU pol adds trees workers s s') {d : Bytes} (hd : ∀ x, x < s'.nItems * c.L.nodeSize → d x = s'.alloc.data x)
    {ids : List Nat} (hids : ∀ x ∈ ids, ∃ v, lastAdded adds x = some v) :
    ∃ vs : List (List c.N.V), ids.map (lastAdded adds) = vs.map some ∧ (∀ v ∈ vs, v.length = c.L.f) ∧
      List.Forall₂ (ItemAt c d) (ids.map (· * c.L.nodeSize)) vs := by
  obtain ⟨N0, B, hN, -⟩ := h.built
  induction ids with
  | nil => exact ⟨[], rfl, by simp, .nil⟩
  | cons x ids ih =>
    obtain ⟨vs, h1, h2, h3⟩ := ih fun y hy => hids y (by simp [hy])
    obtain ⟨v, hv⟩ := hids x (by simp)
    have hx : x < s'.nItems := by
      rw [B.nItems]
      exact lastAdded_lt _ _ (by rw [hv]; rfl)
    have hit := B.items x v hv
    have hit' : ItemAt c d (x * c.L.nodeSize) v := hit.congr h.wf.layout fun j hj => hd _ (by
      have := Nat.mul_le_mul_right c.L.nodeSize hx
      rw [Nat.succ_mul] at this
      omega)
    refine ⟨v :: vs, by simp [hv, h1], fun u hu => ?_, .cons hit' h3⟩
    rcases List.mem_cons.1 hu with rfl | hu
    · rw [← hit.vec]; simp [Node.vec]
    · exact h2 u hu

/-- What an inner node `i` over the items `l` and `r` keeps: the first `vectorLength` bytes of a block whose vector is a hyperplane of the specification
for the vectors last added as `l` and `r`, or zero; the root over a lonely item is blank. -/
def SplitNode (c : Cfg) (adds : List (Nat × List c.N.V)) (b : Bytes) (i : Nat) (l r : Tree) : Prop :=
  (∃ (m : Bytes) (ids : List Nat) (vs : List (List c.N.V)), ids.Perm (l.items ++ r.items) ∧ KeptFrom c b i m ∧ ids.map (lastAdded adds) = vs.map some ∧
    ∃ q q', SplitFrom c.L c.C c.R vs q (Node.vec c.L c.C m 0) q') ∨
  (∃ m, KeptFrom c b i m ∧ Node.vec c.L c.C m 0 = List.replicate c.L.f c.N.zero) ∨
  (∃ j k, l = .item j ∧ r = .hole k ∧ BlankFrom c.L b i (3 * c.L.szIX))

theorem splitNodes {c : Cfg} {numCPU : Nat} {pol : BuildPolicy} {adds : List (Nat × List c.N.V)} {trees workers : Int} {s s' : Idx c}
    (h : Session c numCPU pol adds trees workers s s') (hk : SplitsKept c numCPU pol (slotCount adds) trees workers) (hS : SignSides c)
    (hsplit : ∀ {mem m m' : Bytes} {addrs : List Nat} {vs : List (List c.N.V)} {r r' : c.R.σ}, (∀ v ∈ vs, v.length = c.L.f) →
      List.Forall₂ (ItemAt c mem) addrs vs → c.D.createSplit mem addrs r m = .ok (m', r') →
      SplitFrom c.L c.C c.R vs r (Node.vec c.L c.C m' 0) r') :
    ∃ ts : List Tree, ts.map Tree.root = s'.roots ∧ (∀ t ∈ ts, RootTree c.L s'.alloc.data s'.nItems (addedIds adds) t) ∧
      ∀ t ∈ ts, ∀ i l r, (i, l, r) ∈ t.splits → SplitNode c adds s'.alloc.data i l r := by
  obtain ⟨ts, h1, h2, h3⟩ := Session.C68_divisions_partial h hk hS
  refine ⟨ts, h1, h2, fun t ht i l r hp => ?_⟩
  rcases h3 t ht i l r hp with ⟨m, ids, hids, hkept, (⟨⟨d, q, m0, q', hd, -, hcut⟩, hl, hr⟩ | hz)⟩ | hlone
  · left
    obtain ⟨vs, e1, e2, e3⟩ := cut_items h hd (ids := ids) fun x hx => by
      rcases List.mem_append.1 (hids.mem_iff.1 hx) with hx | hx
      · obtain ⟨v, -, hv, -⟩ := hl x hx
        exact ⟨v, hv⟩
      · obtain ⟨v, -, hv, -⟩ := hr x hx
        exact ⟨v, hv⟩
    exact ⟨m, ids, vs, hids, hkept, e1, q, q', hsplit e2 e3 hcut⟩
  · exact .inr (.inl ⟨m, hkept, hz⟩)
  · exact .inr (.inr hlone)

/-- **C109** for a built angular index, whatever the policy and the schedule of the workers. -/
theorem C109_angular_index (hN : N.MulLaws) (hlaw : N.Lawful) {s s' : Idx (angularCfg N C R sortIds sortP k f)}
    (h : Session (angularCfg N C R sortIds sortP k f) numCPU pol adds trees workers s s')
    (hk : SplitsKept (angularCfg N C R sortIds sortP k f) numCPU pol (slotCount adds) trees workers) :
    ∃ ts : List Tree, ts.map Tree.root = s'.roots ∧
      (∀ t ∈ ts, RootTree (angularLayout k C.sz f) s'.alloc.data s'.nItems (addedIds adds) t) ∧
      ∀ t ∈ ts, ∀ i l r, (i, l, r) ∈ t.splits → SplitNode (angularCfg N C R sortIds sortP k f) adds s'.alloc.data i l r :=
  splitNodes h hk (angular_signSides hlaw) (C109_angular hN h.wf.layout)

/-- **C109** for a built dot product index. -/
theorem C109_dot_index (hN : N.MulLaws) (hlaw : N.Lawful) (hz : N.eq (C.dec (List.replicate C.sz 0)) N.zero = true)
    {s s' : Idx (dotCfg N C R sortIds sortP k f)}
    (h : Session (dotCfg N C R sortIds sortP k f) numCPU pol adds trees workers s s')
    (hk : SplitsKept (dotCfg N C R sortIds sortP k f) numCPU pol (slotCount adds) trees workers) :
    ∃ ts : List Tree, ts.map Tree.root = s'.roots ∧
      (∀ t ∈ ts, RootTree (dotLayout k C.sz f) s'.alloc.data s'.nItems (addedIds adds) t) ∧
      ∀ t ∈ ts, ∀ i l r, (i, l, r) ∈ t.splits → SplitNode (dotCfg N C R sortIds sortP k f) adds s'.alloc.data i l r :=
  splitNodes h hk (dot_signSides hlaw) (fun _ => C109_dot hN hz h.wf.layout)

end

/-- C109: a built index with inner nodes that meets the hypotheses. -/
example : ∃ s s' : Idx (few32 16), Session (few32 16) 1 .single tallAdds 1 1 s s' ∧ (few32 16).L.K < slotCount tallAdds ∧
    ∃ ts : List Tree, ts.map Tree.root = s'.roots ∧ (∀ t ∈ ts, RootTree (few32 16).L s'.alloc.data s'.nItems (addedIds tallAdds) t) ∧
      ∀ t ∈ ts, ∀ i l r, (i, l, r) ∈ t.splits → SplitNode (few32 16) tallAdds s'.alloc.data i l r := by
  obtain ⟨s, s', h, hk, _⟩ := C68_refuted
  exact ⟨s, s', h, by decide +kernel, C109_angular_index ieee32_mulLaws ieee32_lawful h hk⟩

/-- C109: `float32` means.  The vector (0, 3) joins the second of the means (1, 0) and (0, 1); (2, 0) the first; a tie joins none. -/
example : let one := x32 0x3f800000
    let s := after (N := ieee32) (angularFormula ieee32) [one, x32 0] [x32 0, one] [[x32 0, x32 0x40400000], [x32 0x40000000, x32 0], [one, one]]
    s.1.vec.map (BitVec.toNat (w := 32)) = [0x3f800000, 0] ∧ s.2.vec.map (BitVec.toNat (w := 32)) = [0, 0x3f800000] ∧
      BitVec.toNat (w := 64) s.1.weight = 0x4000000000000000 ∧ BitVec.toNat (w := 64) s.2.weight = 0x4000000000000000 := by
  decide +kernel

/-! ### Exact arithmetic -/

theorem pt_zip {n : Nat} {a u : List ℝ} (ha : a.length = n) (hu : u.length = n) (w : ℝ) :
    pt n (List.zipWith (fun x y => (x * w + y) / (w + 1)) a u) = (w + 1)⁻¹ • (w • pt n a + pt n u) := by
  ext i
  have h1 : (i : Nat) < a.length := ha ▸ i.2
  have h2 : (i : Nat) < u.length := hu ▸ i.2
  simp [pt, h1, h2]
  ring

theorem pt_unit {n : Nat} {v : List ℝ} (hv : v.length = n) : pt n (unit (N := realNum) v) = ‖pt n v‖⁻¹ • pt n v := by
  ext i
  have h1 : (i : Nat) < v.length := hv ▸ i.2
  have e : Real.sqrt (Vec.dot realNum v v) = ‖pt n v‖ := C51_norm hv
  have : (unit (N := realNum) v).getD i 0 = v.getD i 0 / ‖pt n v‖ := by
    unfold unit
    rw [← e]
    simp [h1]
  simp only [pt, PiLp.smul_apply, smul_eq_mul] at this ⊢
  rw [this, div_eq_mul_inv, mul_comm]

/-- A mean of a start point and the directions of the vectors `A`. -/
structure MeanOf (n : Nat) (p : List ℝ) (A : List (List ℝ)) (m : Mean realNum) : Prop where
  length : m.vec.length = n
  weight : m.weight = 1 + A.length
  mean : m.weight • pt n m.vec = pt n p + (A.map fun v => ‖pt n v‖⁻¹ • pt n v).sum

theorem MeanOf.join {n : Nat} {p : List ℝ} {A : List (List ℝ)} {m : Mean realNum} (h : MeanOf n p A m) {v : List ℝ} (hv : v.length = n) :
    MeanOf n p (v :: A) (m.join (unit (N := realNum) v)) := by
  have hw : m.weight = 1 + (A.length : ℝ) := h.weight
  have hpos : m.weight + 1 ≠ 0 := by rw [hw]; positivity
  have hu : (unit (N := realNum) v).length = n := by simp [unit, hv]
  refine ⟨?_, ?_, ?_⟩
  · show (List.zipWith _ m.vec (unit (N := realNum) v)).length = n
    simp [h.length, hu]
  · show m.weight + 1 = _
    rw [hw]
    push_cast [List.length_cons]
    ring
  · show (m.weight + 1) • pt n (List.zipWith (fun x y => (x * m.weight + y) / (m.weight + 1)) m.vec (unit (N := realNum) v)) = _
    rw [pt_zip h.length hu, smul_smul, mul_inv_cancel₀ hpos, one_smul, h.mean, pt_unit hv, List.map_cons, List.sum_cons]
    abel

/-- **C109**, exact arithmetic: whatever was seen, each of the two means is the mean of its start point and of the directions of some of the vectors
seen; no vector counts twice, vectors without length count nowhere, and the weight is the number of points of the mean. -/
theorem C109_mean {n : Nat} (dist : List ℝ → List ℝ → ℝ) {p q : List ℝ} (hp : p.length = n) (hq : q.length = n) (seen : List (List ℝ))
    (hs : ∀ v ∈ seen, v.length = n) :
    ∃ A B : List (List ℝ), (A ++ B).Subperm seen ∧ (∀ v ∈ A ++ B, pt n v ≠ 0) ∧
      MeanOf n p A (after (N := realNum) dist p q seen).1 ∧ MeanOf n q B (after (N := realNum) dist p q seen).2 := by
  classical
  suffices H : ∀ (seen : List (List ℝ)) (s : Mean realNum × Mean realNum) (A B : List (List ℝ)), (∀ v ∈ seen, v.length = n) →
      (∀ v ∈ A ++ B, pt n v ≠ 0) → MeanOf n p A s.1 → MeanOf n q B s.2 →
      ∃ A' B' : List (List ℝ), (A' ++ B').Subperm (A ++ B ++ seen) ∧ (∀ v ∈ A' ++ B', pt n v ≠ 0) ∧
        MeanOf n p A' (seen.foldl (see dist) s).1 ∧ MeanOf n q B' (seen.foldl (see dist) s).2 by
    have := H seen (⟨p, realNum.oneW⟩, ⟨q, realNum.oneW⟩) [] [] hs (by simp)
      ⟨hp, by simp, by simp⟩ ⟨hq, by simp, by simp⟩
    simpa [after] using this
  intro seen
  induction seen with
  | nil =>
    intro s A B _ h0 hA hB
    exact ⟨A, B, by simpa using List.Subperm.refl _, h0, hA, hB⟩
  | cons v seen ih =>
    intro s A B hs h0 hA hB
    have hv : v.length = n := hs v (by simp)
    have hs' : ∀ u ∈ seen, u.length = n := fun u hu => hs u (by simp [hu])
    rw [List.foldl_cons]
    have same : ∀ {A' B' : List (List ℝ)}, (A' ++ B').Subperm (A ++ B ++ seen) → (A' ++ B').Subperm (A ++ B ++ v :: seen) := fun h =>
      h.trans ((List.Sublist.refl _).append (List.sublist_cons_self _ _)).subperm
    by_cases hn : realNum.lt realNum.zero (realNum.sqrt (Vec.dot realNum v v)) = true
    · have hv0 : pt n v ≠ 0 := by
        have h1 : (0 : ℝ) < Real.sqrt (Vec.dot realNum v v) := of_decide_eq_true hn
        have e : Real.sqrt (Vec.dot realNum v v) = ‖pt n v‖ := C51_norm hv
        rw [e] at h1
        exact norm_pos_iff.1 h1
      by_cases h1 : realNum.ltW (s.1.far dist v) (s.2.far dist v) = true
      · have e : see dist s v = (s.1.join (unit v), s.2) := (if_pos hn).trans (if_pos h1)
        rw [e]
        obtain ⟨A', B', hsub, h0', hA', hB'⟩ := ih (s.1.join (unit v), s.2) (v :: A) B hs' (by
          intro u hu
          rcases List.mem_cons.1 hu with rfl | hu
          · exact hv0
          · exact h0 u hu) (hA.join hv) hB
        refine ⟨A', B', hsub.trans ?_, h0', hA', hB'⟩
        exact (List.perm_middle (l₁ := A ++ B) (a := v)).symm.subperm
      · by_cases h2 : realNum.ltW (s.2.far dist v) (s.1.far dist v) = true
        · have e : see dist s v = (s.1, s.2.join (unit v)) := (if_pos hn).trans ((if_neg h1).trans (if_pos h2))
          rw [e]
          obtain ⟨A', B', hsub, h0', hA', hB'⟩ := ih (s.1, s.2.join (unit v)) A (v :: B) hs' (by
            intro u hu
            rcases List.mem_append.1 hu with hu | hu
            · exact h0 u (by simp [hu])
            · rcases List.mem_cons.1 hu with rfl | hu
              · exact hv0
              · exact h0 u (by simp [hu])) hA (hB.join hv)
          refine ⟨A', B', hsub.trans ?_, h0', hA', hB'⟩
          refine ((List.perm_middle (l₁ := A) (l₂ := B) (a := v)).append_right seen).trans ?_ |>.subperm
          exact (List.perm_middle (l₁ := A ++ B) (a := v)).symm
        · have e : see dist s v = s := (if_pos hn).trans ((if_neg h1).trans (if_neg h2))
          rw [e]
          obtain ⟨A', B', hsub, h⟩ := ih s A B hs' h0 hA hB
          exact ⟨A', B', same hsub, h⟩
    · have e : see dist s v = s := if_neg hn
      rw [e]
      obtain ⟨A', B', hsub, h⟩ := ih s A B hs' h0 hA hB
      exact ⟨A', B', same hsub, h⟩

/-- **C109**, exact arithmetic: no mean leaves the unit ball. -/
theorem C109_ball {n : Nat} {p : List ℝ} {A : List (List ℝ)} {m : Mean realNum} (h : MeanOf n p A m) (hp : ‖pt n p‖ ≤ 1) : ‖pt n m.vec‖ ≤ 1 := by
  have hw : m.weight = 1 + (A.length : ℝ) := h.weight
  have hpos : 0 < m.weight := by rw [hw]; positivity
  have hsum : ∀ A : List (List ℝ), ‖(A.map fun v => ‖pt n v‖⁻¹ • pt n v).sum‖ ≤ A.length := by
    intro A
    induction A with
    | nil => simp
    | cons v A ih =>
      rw [List.map_cons, List.sum_cons]
      refine (norm_add_le _ _).trans ?_
      have h1 : ‖‖pt n v‖⁻¹ • pt n v‖ ≤ 1 := by
        by_cases h0 : pt n v = 0
        · rw [h0]; simp
        · exact (unit_norm h0).le
      push_cast [List.length_cons]
      linarith
  have h1 : m.weight * ‖pt n m.vec‖ ≤ m.weight := by
    have : ‖m.weight • pt n m.vec‖ = m.weight * ‖pt n m.vec‖ := by rw [norm_smul, Real.norm_of_nonneg hpos.le]
    rw [← this, h.mean]
    refine (norm_add_le _ _).trans ?_
    rw [hw]
    exact add_le_add hp (hsum A)
  exact le_of_mul_le_mul_left (by linarith) hpos

/-- **C109**, exact arithmetic: a vector joins the mean for which the weight times the squared distance of the two directions is smaller. -/
theorem C109_join {n : Nat} {s : Mean realNum × Mean realNum} {v : List ℝ} (h1 : s.1.vec.length = n) (h2 : s.2.vec.length = n) (hv : v.length = n)
    (h10 : pt n s.1.vec ≠ 0) (h20 : pt n s.2.vec ≠ 0) (hv0 : pt n v ≠ 0) :
    let d := fun m : Mean realNum => m.weight * ‖(‖pt n m.vec‖⁻¹ • pt n m.vec) - (‖pt n v‖⁻¹ • pt n v)‖ ^ 2
    (d s.1 < d s.2 → see angDist s v = (s.1.join (unit v), s.2)) ∧
    (d s.2 < d s.1 → see angDist s v = (s.1, s.2.join (unit v))) ∧
    (d s.1 = d s.2 → see angDist s v = s) := by
  classical
  intro d
  have e1 : s.1.far angDist v = d s.1 := congrArg (s.1.weight * ·) (angDist_unit h1 hv h10 hv0)
  have e2 : s.2.far angDist v = d s.2 := congrArg (s.2.weight * ·) (angDist_unit h2 hv h20 hv0)
  have hn : realNum.lt realNum.zero (realNum.sqrt (Vec.dot realNum v v)) = true := by
    apply decide_eq_true
    have e : Real.sqrt (Vec.dot realNum v v) = ‖pt n v‖ := C51_norm hv
    show (0 : ℝ) < Real.sqrt (Vec.dot realNum v v)
    rw [e]
    exact norm_pos_iff.2 hv0
  have hlt : ∀ x y : ℝ, realNum.ltW x y = true ↔ x < y := fun x y => by
    show decide (x < y) = true ↔ _
    simp
  refine ⟨fun h => ?_, fun h => ?_, fun h => ?_⟩
  · exact (if_pos hn).trans (if_pos (by rw [hlt, e1, e2]; exact h))
  · exact (if_pos hn).trans ((if_neg (by rw [hlt, e1, e2]; exact not_lt.2 h.le)).trans (if_pos (by rw [hlt, e1, e2]; exact h)))
  · exact (if_pos hn).trans ((if_neg (by rw [hlt, e1, e2]; exact not_lt.2 h.ge)).trans (if_neg (by rw [hlt, e1, e2]; exact not_lt.2 h.le)))

/-- C109: means in exact arithmetic; one vector has no length. -/
example : ∃ A B : List (List ℝ), (A ++ B).Subperm [[0, 3], [0, 0], [2, 1]] ∧ (∀ v ∈ A ++ B, pt 2 v ≠ 0) ∧
    MeanOf 2 [1, 0] A (after (N := realNum) angDist [1, 0] [0, 1] [[0, 3], [0, 0], [2, 1]]).1 ∧
    MeanOf 2 [0, 1] B (after (N := realNum) angDist [1, 0] [0, 1] [[0, 3], [0, 0], [2, 1]]).2 :=
  C109_mean (n := 2) (p := [1, 0]) (q := [0, 1]) angDist rfl rfl [[0, 3], [0, 0], [2, 1]] fun v hv => by
    simp only [List.mem_cons, List.not_mem_nil, or_false] at hv
    rcases hv with rfl | rfl | rfl <;> rfl

/-! ### C110: directions only -/

/-- A vector times a number. -/
def scaled (t : ℝ) (v : List ℝ) : List ℝ := v.map (t * ·)

theorem pt_scaled (n : Nat) (t : ℝ) (v : List ℝ) : pt n (scaled t v) = t • pt n v := by
  ext i
  simp only [pt, scaled, PiLp.smul_apply, smul_eq_mul]
  by_cases h : (i : Nat) < v.length
  · simp [h]
  · simp [h]

theorem scaled_length (t : ℝ) (v : List ℝ) : (scaled t v).length = v.length := by simp [scaled]

theorem direction_scaled {n : Nat} {t : ℝ} (ht : 0 < t) (v : List ℝ) :
    ‖pt n (scaled t v)‖⁻¹ • pt n (scaled t v) = ‖pt n v‖⁻¹ • pt n v := by
  rw [pt_scaled, norm_smul, Real.norm_of_nonneg ht.le, smul_smul, mul_inv, mul_assoc, mul_comm _ t, ← mul_assoc, inv_mul_cancel₀ ht.ne', one_mul]

theorem unit_scaled {t : ℝ} (ht : 0 < t) (v : List ℝ) : unit (N := realNum) (scaled t v) = unit (N := realNum) v := by
  refine pt_inj (n := v.length) (by simp [unit, scaled]) (by simp [unit]) ?_
  rw [pt_unit (scaled_length t v), pt_unit rfl, direction_scaled ht]

theorem angDist_scaled {t : ℝ} (ht : 0 < t) {p v : List ℝ} (h : p.length = v.length) : angDist p (scaled t v) = angDist p v := by
  by_cases hp : pt v.length p = 0
  · rw [angDist_zero h rfl (.inl hp), angDist_zero h (scaled_length t v) (.inl hp)]
  · by_cases hv : pt v.length v = 0
    · rw [angDist_zero h rfl (.inr hv), angDist_zero h (scaled_length t v) (.inr (by rw [pt_scaled, hv, smul_zero]))]
    · rw [angDist_unit h rfl hp hv, angDist_unit h (scaled_length t v) hp (by rw [pt_scaled]; exact smul_ne_zero ht.ne' hv), direction_scaled ht]

theorem normalize_scaled {t : ℝ} (ht : 0 < t) (v : List ℝ) : Vec.normalize realNum (scaled t v) = Vec.normalize realNum v := by
  classical
  have hn : Vec.getNorm realNum (scaled t v) = t * Vec.getNorm realNum v := by
    rw [C51_norm (scaled_length t v), C51_norm rfl, pt_scaled, norm_smul, Real.norm_of_nonneg ht.le]
  unfold Vec.normalize
  dsimp only
  rw [hn]
  have hlt : ∀ x : ℝ, realNum.lt realNum.zero x = true ↔ 0 < x := by
    intro x; show decide ((0 : ℝ) < x) = true ↔ _; simp
  by_cases h : (0 : ℝ) < Vec.getNorm realNum v
  · rw [if_pos ((hlt _).2 (mul_pos ht h)), if_pos ((hlt _).2 h)]
    unfold scaled
    rw [List.map_map]
    apply List.map_congr_left
    intro x _
    show t * x / (t * Vec.getNorm realNum v) = x / Vec.getNorm realNum v
    exact mul_div_mul_left _ _ ht.ne'
  · have h0 : Vec.getNorm realNum v = (0 : ℝ) := le_antisymm (not_lt.1 h) (Real.sqrt_nonneg _)
    rw [if_neg (by rw [hlt, h0]; simp), if_neg (by rw [hlt, h0]; simp)]
    have hv : pt v.length v = 0 := by
      have := C51_norm (a := v) rfl
      rw [h0] at this
      exact norm_eq_zero.1 this.symm
    refine pt_inj (n := v.length) (scaled_length t v) rfl ?_
    rw [pt_scaled, hv, smul_zero]

/-- One vector per position, each times its own positive number. -/
def Rescaled (vs us : List (List ℝ)) : Prop := List.Forall₂ (fun v u => ∃ t : ℝ, 0 < t ∧ u = scaled t v) vs us

theorem see_scaled {n : Nat} {t : ℝ} (ht : 0 < t) {s : Mean realNum × Mean realNum} {v : List ℝ} (h1 : s.1.vec.length = n) (h2 : s.2.vec.length = n)
    (hv : v.length = n) : see angDist s (scaled t v) = see angDist s v := by
  classical
  have hn : realNum.lt realNum.zero (realNum.sqrt (Vec.dot realNum (scaled t v) (scaled t v))) =
      realNum.lt realNum.zero (realNum.sqrt (Vec.dot realNum v v)) := by
    have e : Real.sqrt (Vec.dot realNum (scaled t v) (scaled t v)) = t * Real.sqrt (Vec.dot realNum v v) := by
      have e1 := C51_norm (scaled_length t v)
      have e2 := C51_norm (a := v) rfl
      unfold Vec.getNorm at e1 e2
      have e1 : Real.sqrt (Vec.dot realNum (scaled t v) (scaled t v)) = _ := e1
      have e2 : Real.sqrt (Vec.dot realNum v v) = _ := e2
      rw [e1, e2, pt_scaled, norm_smul, Real.norm_of_nonneg ht.le]
    show decide ((0 : ℝ) < Real.sqrt (Vec.dot realNum (scaled t v) (scaled t v))) = decide ((0 : ℝ) < Real.sqrt (Vec.dot realNum v v))
    rw [e]
    exact decide_eq_decide.2 (mul_pos_iff_of_pos_left ht)
  have hf : ∀ m : Mean realNum, m.vec.length = n → m.far angDist (scaled t v) = m.far angDist v := fun m hm => by
    unfold Mean.far
    rw [angDist_scaled ht (hm.trans hv.symm)]
  unfold see
  rw [hn, hf _ h1, hf _ h2, unit_scaled ht]

theorem see_length {n : Nat} {s : Mean realNum × Mean realNum} {v : List ℝ} (dist : List ℝ → List ℝ → ℝ) (h1 : s.1.vec.length = n)
    (h2 : s.2.vec.length = n) (hv : v.length = n) : (see dist s v).1.vec.length = n ∧ (see dist s v).2.vec.length = n := by
  have hj : ∀ m : Mean realNum, m.vec.length = n → (m.join (unit (N := realNum) v)).vec.length = n := fun m hm => by
    show (List.zipWith _ m.vec (unit (N := realNum) v)).length = n
    simp [hm, unit, hv]
  unfold see
  split
  · split
    · exact ⟨hj _ h1, h2⟩
    · split
      · exact ⟨h1, hj _ h2⟩
      · exact ⟨h1, h2⟩
  · exact ⟨h1, h2⟩

/-- **C110**, exact arithmetic: the means after some vectors are the means after the same vectors times positive numbers. -/
theorem C110_means {n : Nat} {p q : List ℝ} (hp : p.length = n) (hq : q.length = n) {seen seen' : List (List ℝ)} (hs : ∀ v ∈ seen, v.length = n)
    (h : Rescaled seen seen') : after (N := realNum) angDist p q seen' = after (N := realNum) angDist p q seen := by
  suffices H : ∀ (s : Mean realNum × Mean realNum), s.1.vec.length = n → s.2.vec.length = n →
      seen'.foldl (see angDist) s = seen.foldl (see angDist) s from H _ hp hq
  induction h with
  | nil => intro s _ _; rfl
  | cons hv _ ih =>
    intro s h1 h2
    obtain ⟨t, ht, rfl⟩ := hv
    have hl := hs _ (List.mem_cons_self ..)
    rw [List.foldl_cons, List.foldl_cons, see_scaled ht h1 h2 hl]
    obtain ⟨e1, e2⟩ := see_length angDist h1 h2 hl
    exact ih (fun v hv => hs v (List.mem_cons_of_mem _ hv)) _ e1 e2

/-- **C110**, exact arithmetic: the hyperplane of a split does not change if every vector, start points included, is multiplied by a positive number of its
own. -/
theorem C110_normal {n : Nat} {v u : List ℝ} (hv : v.length = n) (hu : u.length = n) {a b : ℝ} (ha : 0 < a) (hb : 0 < b)
    {seen seen' : List (List ℝ)} (hs : ∀ v ∈ seen, v.length = n) (h : Rescaled seen seen') :
    normal (N := realNum) angDist (Vec.normalize realNum (scaled a v)) (Vec.normalize realNum (scaled b u)) seen' =
      normal (N := realNum) angDist (Vec.normalize realNum v) (Vec.normalize realNum u) seen := by
  rw [normalize_scaled ha, normalize_scaled hb]
  unfold normal
  rw [C110_means ((normalize_length (N := realNum) v).trans hv) ((normalize_length (N := realNum) u).trans hu) hs h]

/-- **C110**, exact arithmetic: a vector and its positive multiple lie on the same side of every hyperplane. -/
theorem C110_side {n : Nat} {t : ℝ} (ht : 0 < t) {w v : List ℝ} (hw : w.length = n) (hv : v.length = n) {R : Rng} (r : R.σ) :
    Angular.sideOf (N := realNum) (Vec.dot realNum w (scaled t v)) r = Angular.sideOf (N := realNum) (Vec.dot realNum w v) r := by
  classical
  have e : Vec.dot realNum w (scaled t v) = t * Vec.dot realNum w v := by
    rw [dot_inner hw ((scaled_length t v).trans hv), dot_inner hw hv, pt_scaled, real_inner_smul_right]
  rw [e]
  unfold Angular.sideOf
  have h1 : realNum.eq (t * Vec.dot realNum w v) realNum.zero = realNum.eq (Vec.dot realNum w v) realNum.zero :=
    decide_eq_decide.2 (by simp [ht.ne'])
  have h2 : realNum.lt realNum.zero (t * Vec.dot realNum w v) = realNum.lt realNum.zero (Vec.dot realNum w v) :=
    decide_eq_decide.2 (mul_pos_iff_of_pos_left ht)
  rw [h1, h2]

/-- C110: the vectors (3, 4) and (1, 2), times 2 and 5. -/
example : normal (N := realNum) angDist (Vec.normalize realNum (scaled 2 [3, 4])) (Vec.normalize realNum (scaled 5 [1, 2])) [scaled 2 [3, 4], scaled 5 [1, 2]] =
    normal (N := realNum) angDist (Vec.normalize realNum [3, 4]) (Vec.normalize realNum [1, 2]) [[3, 4], [1, 2]] :=
  C110_normal (n := 2) rfl rfl (by norm_num) (by norm_num) (fun v hv => by
    simp only [List.mem_cons, List.not_mem_nil, or_false] at hv
    rcases hv with rfl | rfl <;> rfl) (.cons ⟨2, by norm_num, rfl⟩ (.cons ⟨5, by norm_num, rfl⟩ .nil))

end Annoy
