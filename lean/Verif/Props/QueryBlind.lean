import Verif.Proof.SearchAlike
import Verif.Props.SaveLoad
/-!
# C69: what a search looks at depends on few components of the query

A stored split node is blank from byte `vectorLength` on (`CopyNode` is given the vector length as a number of bytes),
so most components of its hyperplane are zero, and a search cannot tell queries apart that differ in these
components only.
-/
namespace Annoy

/-- Where the margin of a hyperplane whose components from some `t` on are zero depends on the first `t` components of
a finite query only. -/
structure PrefixMargins (c : Cfg) (K : c.N.Canon) : Prop where
  pq : ∀ d m side, c.D.pqDistance d m side = Angular.pqDistance d m side
  blank : c.C.dec (List.replicate c.C.sz 0) = c.N.zero
  margin : ∀ (b : Bytes) (a t : Nat) (q q' : List c.N.V), (∀ v ∈ (Node.vec c.L c.C b a).drop t, v = c.N.zero) →
    q.length = c.L.f → q'.length = c.L.f → (∀ x ∈ q, K.fin x) → (∀ x ∈ q', K.fin x) → q.take t = q'.take t →
    ∀ x x', c.D.margin b a q = .ok x → c.D.margin b a q' = .ok x' → K.can x = K.can x'

section
variable {N : Num} {C : Codec N.V} {R : Rng} {sI : List Nat → List Nat} {sP : List (N.V × Nat) → List (N.V × Nat)} {k f : Nat}

theorem angular_margin_eq {L : Layout} {b : Bytes} {a : Nat} {q : List N.V} {x : N.V}
    (h : Angular.margin (L := L) C b a q = .ok x) : x = Vec.dot N (Node.vec L C b a) q := by
  unfold Angular.margin at h
  split at h
  · cases h
  · split at h
    · cases h
    · exact (Except.ok.inj h).symm

theorem dot_margin_eq {L : Layout} {b : Bytes} {a : Nat} {q : List N.V} {x : N.V}
    (h : DotProduct.margin (L := L) C b a q = .ok x) :
    x = N.add (Vec.dot N (Node.vec L C b a) q) (N.mul (Node.dotFactor L C b a) (Node.dotFactor L C b a)) := by
  unfold DotProduct.margin at h
  split at h
  · cases h
  · split at h
    · cases h
    · exact (Except.ok.inj h).symm

/-- The angular index. -/
theorem angular_prefix (K : N.Canon) (hz : C.dec (List.replicate C.sz 0) = N.zero) :
    PrefixMargins (angularCfg N C R sI sP k f) K where
  pq _ _ _ := rfl
  blank := hz
  margin b a t q q' hv h1 h2 f1 f2 ht x x' hx hx' := by
    rw [angular_margin_eq hx, angular_margin_eq hx']
    exact dot_alike K hv ((Node.vec_length _ _ _).trans h1.symm) ((Node.vec_length _ _ _).trans h2.symm) f1 f2 ht

/-- The dot product index. -/
theorem dot_prefix (K : N.Canon) (hz : C.dec (List.replicate C.sz 0) = N.zero) :
    PrefixMargins (dotCfg N C R sI sP k f) K where
  pq _ _ _ := rfl
  blank := hz
  margin b a t q q' hv h1 h2 f1 f2 ht x x' hx hx' := by
    rw [dot_margin_eq hx, dot_margin_eq hx']
    exact K.add _
      (dot_alike K hv ((Node.vec_length _ _ _).trans h1.symm) ((Node.vec_length _ _ _).trans h2.symm) f1 f2 ht)

end

/-- Components behind a blank tail. -/
theorem Node.vec_blank {c : Cfg} (hL : c.L.Ok c.C.sz) {b : Bytes} {i o t : Nat} (h : BlankFrom c.L b i o)
    (ht : o ≤ c.L.offV + t * c.C.sz) :
    ∀ v ∈ (Node.vec c.L c.C b (i * c.L.nodeSize)).drop t, v = c.C.dec (List.replicate c.C.sz 0) := by
  intro v hv
  obtain ⟨j, hj, rfl⟩ := List.mem_iff_getElem.1 hv
  rw [List.length_drop, Node.vec_length] at hj
  rw [List.getElem_drop]
  unfold Node.vec
  rw [List.getElem_map, List.getElem_range]
  have e1 : (t + j) * c.C.sz + c.C.sz ≤ c.L.f * c.C.sz := by
    rw [← Nat.succ_mul]; exact Nat.mul_le_mul_right _ (by omega)
  have e2 : t * c.C.sz ≤ (t + j) * c.C.sz := Nat.mul_le_mul_right _ (by omega)
  have e3 := hL.size_eq
  congr 1
  refine List.eq_replicate_iff.2 ⟨by simp [readBytes], fun y hy => ?_⟩
  obtain ⟨x, hx, rfl⟩ := List.mem_map.1 hy
  have hx := List.mem_range.1 hx
  have := h (c.L.offV + (t + j) * c.C.sz + x) (by omega) (by omega)
  rw [← this]
  congr 1
  omega

namespace Search
variable {c : Cfg} {mem : Block} {n N : Nat}

/-- Two finite queries with the same first `t` components collect the same candidates. -/
theorem collect_prefix_query (hc : c.WF) {K : c.N.Canon} (P : PrefixMargins c K)
    (hnode : ∀ i, i < N → getNode c.L mem i = .ok (i * c.L.nodeSize))
    (hslot : ∀ i, i < n → ndAt c.L mem.get i = 0 ∨ ndAt c.L mem.get i = 1)
    (hdown : ∀ i, n ≤ i → i < N → Downward c.L mem.get n i) {roots : List Nat} (hr : ∀ r ∈ roots, r < N)
    {t : Nat} (ht : c.L.f ≤ c.L.offV + t * c.C.sz) {q q' : List c.N.V} (hq : GoodQuery c q) (hq' : GoodQuery c q')
    (f1 : ∀ x ∈ q, K.fin x) (f2 : ∀ x ∈ q', K.fin x) (he : q.take t = q'.take t) (budget : Int) (fuel : Nat) :
    collect mem n q budget fuel (initQueue c roots) [] = collect mem n q' budget fuel (initQueue c roots) [] := by
  have hL := hc.layout
  refine collect_alike K P.pq (good := fun i => i < N) ?_ budget fuel rfl ?_
  · intro i a hi ha hit hK
    rw [hnode i hi] at ha
    cases ha
    have hin : n ≤ i := by
      by_contra hlt
      rcases hslot i (by omega) with h | h
      · have hK' : c.L.K < ndAt c.L mem.get i := hK
        omega
      · exact hit ⟨h, by omega⟩
    obtain ⟨_, d2, d3⟩ := hdown i hin hi
    obtain ⟨e1, e2⟩ := d2 hK
    obtain ⟨x, hx⟩ := hq.margin mem.get (i * c.L.nodeSize)
    obtain ⟨x', hx'⟩ := hq'.margin mem.get (i * c.L.nodeSize)
    refine ⟨by show childAt c.L mem.get i 0 < N; omega, by show childAt c.L mem.get i 1 < N; omega, x, x', hx, hx', ?_⟩
    refine P.margin _ _ t _ _ ?_ hq.length hq'.length f1 f2 he x x' hx hx'
    intro v hv
    rw [← P.blank]
    have := hL.offV_ge
    exact Node.vec_blank hL (d3 hK) (by omega) v hv
  · intro p hp
    have := (initQueue_perm roots).mem_iff.1 hp
    obtain ⟨r, hr', rfl⟩ := List.mem_map.1 this
    exact hr r hr'

/-- The candidates as a function of the first `t` components of the query. -/
theorem prefix_answer (hc : c.WF) (hN : c.N.Lawful) {K : c.N.Canon} (P : PrefixMargins c K)
    {roots : List Nat} {m : Nat → Option (List c.N.V)} {ts : List Tree} (S : Searchable c mem n roots m ts)
    (hnode : ∀ i, i < N → getNode c.L mem i = .ok (i * c.L.nodeSize))
    (hslot : ∀ i, i < n → ndAt c.L mem.get i = 0 ∨ ndAt c.L mem.get i = 1)
    (hdown : ∀ i, n ≤ i → i < N → Downward c.L mem.get n i) (hr : ∀ r ∈ roots, r < N)
    {t : Nat} (ht : c.L.f ≤ c.L.offV + t * c.C.sz) (k b : Int) :
    ∃ A : List c.N.V → List Nat, (∀ p, (A p).Nodup ∧ ∀ i ∈ A p, (m i).isSome) ∧
      ∀ query, GoodQuery c query → (∀ x ∈ query, K.fin x) → ∀ fuel ctx ids ds ctx',
        run c fuel mem n roots query k b ctx = .ok (ids, ds, ctx') →
        TopK c.N c.D.normalizedDistance (itemDist c m query) (A (query.take t)) k.toNat ids ds := by
  classical
  let Q : List c.N.V → List Nat → Prop := fun p col => ∃ q fuel, GoodQuery c q ∧ (∀ x ∈ q, K.fin x) ∧ q.take t = p ∧
    collect mem n q (if b = -1 then k * roots.length else b) fuel (initQueue c roots) [] = .ok col
  refine ⟨fun p => if h : ∃ col, Q p col then itemsAmong m n h.choose else [], fun p => ?_, ?_⟩
  · dsimp only
    split
    · exact ⟨itemsAmong_nodup _ _ _, itemsAmong_live⟩
    · simp
  · intro query hq hf fuel ctx ids ds ctx' hrun
    obtain ⟨done, rest, _, _, h1, h2⟩ := answer hc hN S hq hrun
    have hex : ∃ col, Q (query.take t) col := ⟨_, query, fuel, hq, hf, rfl, h1⟩
    dsimp only
    rw [dif_pos hex]
    obtain ⟨q, fuel', g1, g2, g3, g4⟩ := hex.choose_spec
    rw [collect_prefix_query hc P hnode hslot hdown hr ht g1 hq g2 hf g3] at g4
    rw [collect_det g4 h1]
    exact h2

end Search

namespace Session
variable {c : Cfg} {numCPU : Nat} {pol : BuildPolicy} {adds : List (Nat × List c.N.V)} {trees workers : Int} {s s' : Idx c}

/-- **C69**: for given `numReturn` and budget, the items a search of a built index looks at are a function of the first
`t` components of the (finite) query, where component `t` starts at or behind byte `vectorLength` of a node:
`t ≥ (vectorLength - offV) / sizeof(TV)`.  The answer is the answer of a linear scan over these items. -/
theorem C69_prefix (h : Session c numCPU pol adds trees workers s s') (hN : c.N.Lawful) {K : c.N.Canon}
    (P : PrefixMargins c K) {t : Nat} (ht : c.L.f ≤ c.L.offV + t * c.C.sz) (w : World) (k b : Int) :
    ∃ A : List c.N.V → List Nat, (∀ p, (A p).Nodup ∧ ∀ i ∈ A p, (lastAdded adds i).isSome) ∧
      ∀ query, GoodQuery c query → (∀ x ∈ query, K.fin x) → ∀ fuel ctx ids ds ctx',
        s'.getNnsByVector fuel w query k b ctx = .ok (ids, ds, ctx') →
        TopK c.N c.D.normalizedDistance (itemDist c (lastAdded adds) query) (A (query.take t)) k.toNat ids ds := by
  obtain ⟨N0, B, _⟩ := h.built
  obtain ⟨ts, S, _⟩ := h.searchable w
  have hN0 := B.nNodes
  by_cases h0 : 0 < s'.nNodes
  · obtain ⟨hm, _⟩ := B.mem_eq w h0
    refine Search.prefix_answer (N := N0) h.wf hN P S (fun i hi => B.getNode w (by omega)) ?_ ?_
      (fun r hr => (B.roots_lt r hr).2) ht k b
    · intro i hi
      rw [hm]
      exact B.nd_slot h.wf (by rwa [B.nItems] at hi)
    · intro i h1 h2
      rw [hm, B.nItems]
      exact B.downward i (by rwa [B.nItems] at h1) h2
  · have hr : s'.roots = [] := List.length_eq_zero_iff.1 (by omega)
    have hn : s'.nItems = 0 := by rw [B.nItems]; have := B.n_le; omega
    refine Search.prefix_answer (N := 0) h.wf hN P S (fun i hi => absurd hi (Nat.not_lt_zero _)) ?_
      (fun i _ hi => absurd hi (Nat.not_lt_zero _)) (by rw [hr]; simp) ht k b
    intro i hi
    omega

/-- **C69** for loaded indexes. -/
theorem C69_prefix_loaded (h : Session c numCPU pol adds trees workers s s') (hN : c.N.Lawful) (hn : 2 ≤ slotCount adds)
    (hroots : s'.roots ≠ []) (hk : c.L.CountKept (slotCount adds)) {w : World} {path : String} (hf : FileOf s' w path)
    {bk : Backend} {u v : Idx c} (hl : u.load bk w path = .ok (.nil, v)) {K : c.N.Canon} (P : PrefixMargins c K)
    {t : Nat} (ht : c.L.f ≤ c.L.offV + t * c.C.sz) (k b : Int) :
    ∃ A : List c.N.V → List Nat, (∀ p, (A p).Nodup ∧ ∀ i ∈ A p, (lastAdded adds i).isSome) ∧
      ∀ query, GoodQuery c query → (∀ x ∈ query, K.fin x) → ∀ fuel ctx ids ds ctx',
        v.getNnsByVector fuel w query k b ctx = .ok (ids, ds, ctx') →
        TopK c.N c.D.normalizedDistance (itemDist c (lastAdded adds) query) (A (query.take t)) k.toNat ids ds := by
  obtain ⟨t', h1, N0, B, _, R⟩ := h.reload hn hroots hk hf bk u
  rw [hl] at h1
  cases h1
  obtain ⟨ts, S, _⟩ := R.searchable h.wf B hk
  refine Search.prefix_answer (N := s'.nNodes) h.wf hN P S (fun i hi => R.getNode B hi) ?_ ?_
    (fun r hr => (R.roots_mem hr).2.1) ht k b
  · intro i hi
    rw [R.mem]
    exact B.nd_slot h.wf (by rwa [R.nItems] at hi)
  · intro i h1 h2
    rw [R.mem, R.nItems]
    exact B.downward_all h.wf hk (by rwa [R.nItems] at h1) h2

/-- **C69**, short vectors: if the vector length is at most the offset of the vector in a node (12 for `uint32`
and `float32`), all finite queries look at the same items. -/
theorem C69_blind (h : Session c numCPU pol adds trees workers s s') (hN : c.N.Lawful) {K : c.N.Canon}
    (P : PrefixMargins c K) (ht : c.L.f ≤ c.L.offV) (w : World) (k b : Int) :
    ∃ A : List Nat, A.Nodup ∧ (∀ i ∈ A, (lastAdded adds i).isSome) ∧
      ∀ query, GoodQuery c query → (∀ x ∈ query, K.fin x) → ∀ fuel ctx ids ds ctx',
        s'.getNnsByVector fuel w query k b ctx = .ok (ids, ds, ctx') →
        TopK c.N c.D.normalizedDistance (itemDist c (lastAdded adds) query) A k.toNat ids ds := by
  obtain ⟨A, h1, h2⟩ := h.C69_prefix hN P (t := 0) (by omega) w k b
  refine ⟨A [], (h1 []).1, (h1 []).2, fun query hq hf fuel ctx ids ds ctx' hr => ?_⟩
  simpa using h2 query hq hf fuel ctx ids ds ctx' hr

/-- **C69**, short vectors: with any budget, all finite queries that ask for at least as many results as there are items
return the same items (in an order of their own). -/
theorem C69_same_items (h : Session c numCPU pol adds trees workers s s') (hN : c.N.Lawful) {K : c.N.Canon}
    (P : PrefixMargins c K) (ht : c.L.f ≤ c.L.offV) (w : World) {k b : Int} (hk : ((addedIds adds).length : Int) ≤ k)
    {q q' : List c.N.V} (hq : GoodQuery c q) (hq' : GoodQuery c q') (f1 : ∀ x ∈ q, K.fin x) (f2 : ∀ x ∈ q', K.fin x)
    {fuel fuel' : Nat} {ctx ctx' o o' : Ctx c} {ids ids' : List Nat} {ds ds' : List c.N.V}
    (h1 : s'.getNnsByVector fuel w q k b ctx = .ok (ids, ds, o))
    (h2 : s'.getNnsByVector fuel' w q' k b ctx' = .ok (ids', ds', o')) : ids.Perm ids' := by
  obtain ⟨A, a1, a2, a3⟩ := h.C69_blind hN P ht w k b
  have hle : A.length ≤ k.toNat := by
    have hsub : A ⊆ addedIds adds := fun i hi => mem_liveOf.2 ⟨lastAdded_lt adds i (a2 i hi), a2 i hi⟩
    have := (a1.subperm hsub).length_le
    omega
  have key : ∀ {δ} {ids : List Nat} {ds}, TopK c.N c.D.normalizedDistance δ A k.toNat ids ds → ids.Perm A := by
    intro δ ids ds T
    have hl : ids.length = A.length := by rw [T.length]; omega
    exact (T.nodup.subperm T.sub).perm_of_length_le (by omega)
  exact (key (a3 q hq f1 _ _ _ _ _ h1)).trans (key (a3 q' hq' f2 _ _ _ _ _ h2)).symm

end Session
end Annoy
