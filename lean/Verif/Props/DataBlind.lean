import Verif.Proof.Swap
import Verif.Proof.SwapConc
import Verif.Props.QueryBlind
import Verif.Props.Shared
import Verif.Props.OwnVector
/-!
# C107, C108: the trees of short vectors do not depend on the vectors

`CreateSplit` starts `TwoMeans` with copies of `vectorLength` bytes of two items.  If the vector of a node starts at or
behind byte `vectorLength`, these copies have the vector zero, and every later step keeps it: the hyperplane is zero and every item goes to a
random side.
-/
namespace Annoy
namespace Idx
variable {c : Cfg}

/-- Everything of an index but the bytes of its nodes. -/
def bare (s : Idx c) : Idx c := s.write fun _ => zeros

theorem bare_allocateSize (s : Idx c) (k : Nat) : (s.allocateSize k).bare = s.bare.allocateSize k := by
  unfold allocateSize
  show _ = if k > s.nodesSize then _ else _
  split
  · unfold bare write
    dsimp only
    congr 1
    unfold Alloc.reallocate
    dsimp only
    split
    · rfl
    · congr 1
      refine Bytes.ext' fun x => ?_
      show 0 = if x < s.alloc.size then zeros x else 0
      split <;> rfl
  · rfl

theorem bare_getNode (s : Idx c) (i : Nat) : getNode c.L s.bare.bmem i = getNode c.L s.bmem i := by
  unfold getNode
  have : s.bare.bmem.size = s.bmem.size := by
    obtain ⟨_, _, _, nodes, _, _, _, _, _, _, _⟩ := s
    cases nodes <;> rfl
  rw [this]

theorem addItem_bare {s t s' t' : Idx c} (h : s.bare = t.bare) {i : Nat} {v v' : List c.N.V} (hs : s.addItem i v = .ok s')
    (ht : t.addItem i v' = .ok t') : s'.bare = t'.bare := by
  have key : ∀ {s s' : Idx c} {v : List c.N.V}, s.addItem i v = .ok s' → s'.bare =
      let u := s.bare.allocateSize (c.L.wrap (i + 1))
      if i ≥ u.nItems then { u with nItems := c.L.wrap (i + 1) } else u := by
    intro s s' v hs
    unfold addItem at hs
    split at hs
    · cases hs
    · split at hs
      · cases hs
      · simp only [bind, Except.bind] at hs
        split at hs
        · cases hs
        · cases hs
          dsimp only
          rw [← bare_allocateSize]
          show (if i ≥ (s.allocateSize (c.L.wrap (i + 1))).nItems then _ else _ : Idx c).bare =
            if i ≥ (s.allocateSize (c.L.wrap (i + 1))).nItems then _ else _
          split <;> rfl
  rw [key hs, key ht, h]

theorem addAll_bare : ∀ {adds adds' : List (Nat × List c.N.V)} {s t s' t' : Idx c}, adds.map Prod.fst = adds'.map Prod.fst → s.bare = t.bare →
    s.addAll adds = .ok s' → t.addAll adds' = .ok t' → s'.bare = t'.bare := by
  intro adds
  induction adds with
  | nil =>
    intro adds' s t s' t' hids h hs ht
    obtain rfl : adds' = [] := by simpa using hids.symm
    cases hs; cases ht
    exact h
  | cons p adds ih =>
    intro adds' s t s' t' hids h hs ht
    obtain ⟨i, v⟩ := p
    cases adds' with
    | nil => simp at hids
    | cons p' adds' =>
      obtain ⟨i', v'⟩ := p'
      simp only [List.map_cons, List.cons.injEq] at hids
      obtain ⟨rfl, hids⟩ := hids
      unfold addAll at hs ht
      cases h1 : s.addItem i v with
      | error e => rw [h1] at hs; cases hs
      | ok s1 =>
        cases h2 : t.addItem i v' with
        | error e => rw [h2] at ht; cases ht
        | ok t1 =>
          rw [h1] at hs
          rw [h2] at ht
          exact ih hids (addItem_bare h h1 h2) hs ht

theorem eq_swap_of_bare {s t : Idx c} {n : Nat} (h : s.bare = t.bare) (hz : ∀ x, n * c.L.nodeSize ≤ x → t.alloc.data x = s.alloc.data x) :
    t = s.swap t.alloc.data n := by
  have h1 : t = s.write fun _ => t.alloc.data := by
    have e : t = t.bare.write fun _ => t.alloc.data := rfl
    rw [← h] at e
    exact e
  have h2 : swapBytes t.alloc.data (n * c.L.nodeSize) s.alloc.data = t.alloc.data := by
    refine Bytes.ext' fun x => ?_
    by_cases hx : x < n * c.L.nodeSize
    · exact swapBytes_below hx _
    · rw [swapBytes_above (by omega), hz x (by omega)]
  unfold swap
  refine h1.trans ?_
  unfold write
  rw [h2]

end Idx

theorem slotCount_ids {V : Type} {adds adds' : List (Nat × List V)} (h : adds.map Prod.fst = adds'.map Prod.fst) :
    slotCount adds = slotCount adds' := by
  have e : ∀ adds : List (Nat × List V), slotCount adds = (adds.map Prod.fst).foldr (fun i a => max (i + 1) a) 0 := by
    intro adds
    unfold slotCount
    rw [List.foldr_map]
  rw [e, e, h]

theorem lastAdded_isSome_iff {V : Type} {adds : List (Nat × List V)} {i : Nat} : (lastAdded adds i).isSome ↔ i ∈ adds.map Prod.fst := by
  unfold lastAdded
  rw [Option.isSome_map, List.find?_isSome]
  simp

theorem lastAdded_ids {V : Type} {adds adds' : List (Nat × List V)} (h : adds.map Prod.fst = adds'.map Prod.fst) (i : Nat) :
    (lastAdded adds i).isSome = (lastAdded adds' i).isSome := by
  rw [Bool.eq_iff_iff, lastAdded_isSome_iff, lastAdded_isSome_iff, h]

theorem lastAdded_mem {V : Type} {adds : List (Nat × List V)} {i : Nat} {v : List V} (h : lastAdded adds i = some v) : (i, v) ∈ adds := by
  unfold lastAdded at h
  obtain ⟨p, hp, rfl⟩ := Option.map_eq_some_iff.1 h
  have h1 := List.mem_reverse.1 (List.mem_of_find?_eq_some hp)
  have h2 := List.find?_some hp
  have h3 : p.1 = i := by simpa using h2
  rw [← h3]
  exact h1

namespace Session
variable {c : Cfg} {fin : c.N.V → Prop} {blank : Bytes → Prop} {numCPU numCPU' : Nat} {adds adds' : List (Nat × List c.N.V)} {trees workers workers' : Int} {s s' t t' : Idx c}

/-- `Build` over other vectors starts with the index whose item nodes are exchanged. -/
theorem start_swap (hc : c.WF) (hl : LegalAdds c adds) (hl' : LegalAdds c adds') {r : c.R.σ} {hint : Nat}
    (ha : (Idx.new c r hint).addAll adds = .ok s) (hb : (Idx.new c r hint).addAll adds' = .ok t)
    (hids : adds.map Prod.fst = adds'.map Prod.fst) (f1 : ∀ p ∈ adds, ∀ x ∈ p.2, fin x) (f2 : ∀ p ∈ adds', ∀ x ∈ p.2, fin x) :
    ∃ s1 t1, s.buildStart = .ok s1 ∧ t.buildStart = .ok t1 ∧ s1.BInv (slotCount adds) ∧ s1.Slots (lastAdded adds) (slotCount adds) ∧
      s1.nNodes = slotCount adds ∧ s1.built = false ∧ s1.roots = [] ∧ t1 = s1.swap t1.alloc.data (slotCount adds) ∧
      s1.Twinned fin t1.alloc.data (slotCount adds) ∧
      ∀ i, i < slotCount adds → ndAt c.L t1.alloc.data i = if (lastAdded adds i).isSome then 1 else 0 := by
  have begin : ∀ {adds : List (Nat × List c.N.V)} {s : Idx c}, LegalAdds c adds → (Idx.new c r hint).addAll adds = .ok s →
      s.ItemInv (lastAdded adds) (slotCount adds) ∧ s.built = false ∧ s.roots = [] := by
    intro adds s hl ha
    obtain ⟨s1, h1, h2, h3, h4, h5, _⟩ := addAll_spec hc adds _ _ _ (Idx.ItemInv.new c hc.layout r hint) hl
    rw [ha] at h1
    injection h1 with e
    subst e
    exact ⟨by simpa using h2, h4, h3⟩
  obtain ⟨a1, a2, a3⟩ := begin hl ha
  obtain ⟨b1, b2, b3⟩ := begin hl' hb
  have hbare := Idx.addAll_bare hids rfl ha hb
  have hn := slotCount_ids hids
  rw [← hn] at b1
  obtain ⟨s1, hs1, c1, c2, c3, c4, c5, c6, c7, -⟩ := Idx.buildStart_spec hc a1 a2
  obtain ⟨t1, ht1, d1, d2, d3, d4, d5, d6, d7, -⟩ := Idx.buildStart_spec hc b1 b2
  have hbare1 : s1.bare = t1.bare := by
    have key : ∀ {s s1 : Idx c}, s.buildStart = .ok s1 → s1.bare = { s.bare with nNodes := s.nItems } := by
      intro s s1 hs
      unfold Idx.buildStart at hs
      split at hs
      · cases hs
      · split at hs
        · cases hs
        · cases hs; rfl
    rw [key hs1, key ht1, a1.nItems, b1.nItems, hbare]
  have e1 : t1 = s1.swap t1.alloc.data (slotCount adds) := by
    refine Idx.eq_swap_of_bare hbare1 fun x hx => ?_
    rw [c1.zero x (by rw [c3]; exact hx), d1.zero x (by rw [d3]; exact hx)]
  have htw : s1.Twinned fin t1.alloc.data (slotCount adds) := by
    have live : ∀ i, IsItem c.L s1.alloc.data (slotCount adds) i → (lastAdded adds i).isSome := by
      intro i hi
      have := c2.nd i hi.1
      rw [hi.2] at this
      by_contra hc
      rw [if_neg hc] at this
      omega
    refine ⟨fun i hi => ?_, fun i hi => ?_, fun i hi => ?_⟩
    · obtain ⟨v, hv⟩ := Option.isSome_iff_exists.1 (live i hi)
      exact ⟨v, c7 i v hv, f1 _ (lastAdded_mem hv)⟩
    · have := live i hi
      rw [lastAdded_ids hids] at this
      obtain ⟨v, hv⟩ := Option.isSome_iff_exists.1 this
      exact ⟨v, d7 i v hv, f2 _ (lastAdded_mem hv)⟩
    · rw [c2.nd i hi, d2.nd i hi, lastAdded_ids hids]
  exact ⟨s1, t1, hs1, ht1, c1, c2, c3, c4, c5.trans a3, e1, htw, fun i hi => by rw [d2.nd i hi, lastAdded_ids hids]⟩

theorem counts_built {pol : BuildPolicy} (h : Session c numCPU pol adds trees workers s s') {i : Nat} (hi : i < slotCount adds) :
    ndAt c.L s'.alloc.data i = if (lastAdded adds i).isSome then 1 else 0 := by
  obtain ⟨N0, B, -⟩ := h.built
  cases hm : lastAdded adds i with
  | none => exact B.nd_gap h.wf hi hm
  | some v => exact (B.items i v hm).nDesc

/-- The index over other vectors is the index with its item nodes exchanged. -/
theorem build_swap (D : DataBlind c fin blank) (hf0 : 0 < c.L.f) (h : Session c numCPU .single adds trees workers s s')
    (g : Session c numCPU' .single adds' trees workers' t t') {r : c.R.σ} {hint : Nat}
    (ha : (Idx.new c r hint).addAll adds = .ok s) (hb : (Idx.new c r hint).addAll adds' = .ok t)
    (hids : adds.map Prod.fst = adds'.map Prod.fst) (f1 : ∀ p ∈ adds, ∀ x ∈ p.2, fin x) (f2 : ∀ p ∈ adds', ∀ x ∈ p.2, fin x) :
    ∃ T, t' = s'.swap T (slotCount adds) ∧ ∀ i, i < slotCount adds → ndAt c.L T i = ndAt c.L s'.alloc.data i := by
  obtain ⟨s1, t1, hs1, ht1, c1, c2, c3, -, c5, e1, htw, hnd⟩ := start_swap h.wf h.legal g.legal ha hb hids f1 f2
  refine ⟨t1.alloc.data, ?_, fun i hi => (hnd i hi).trans (h.counts_built hi).symm⟩
  have hfit := h.fits
  cases h.builds with
  | single rf tf lf hb1 =>
    cases g.builds with
    | single rf' tf' lf' hb2 =>
      unfold Idx.build at hb1
      rw [hs1] at hb1
      have := Idx.buildRest_swap h.wf D hf0 c1 c2 htw c3 c5 hfit hb1
      rw [← e1] at this
      refine Idx.build_det hb2 (rf' := rf) (tf' := tf) (lf' := lf) ?_
      unfold Idx.build
      rw [ht1]
      exact this

/-- With several workers, every schedule over one set of vectors is a schedule over the other, and leads to the index with its item nodes exchanged. -/
theorem build_swap_multi (D : DataBlind c fin blank) (hf0 : 0 < c.L.f) (h : Session c numCPU .multi adds trees workers s s')
    (hl : LegalAdds c adds') {r : c.R.σ} {hint : Nat}
    (ha : (Idx.new c r hint).addAll adds = .ok s) (hb : (Idx.new c r hint).addAll adds' = .ok t)
    (hids : adds.map Prod.fst = adds'.map Prod.fst) (f1 : ∀ p ∈ adds, ∀ x ∈ p.2, fin x) (f2 : ∀ p ∈ adds', ∀ x ∈ p.2, fin x) :
    ∃ T, Session c numCPU .multi adds' trees workers t (s'.swap T (slotCount adds)) ∧
      ∀ i, i < slotCount adds → ndAt c.L T i = ndAt c.L s'.alloc.data i := by
  have hc := h.wf
  have hL := hc.layout
  obtain ⟨s1, t1, hs1, ht1, c1, c2, c3, c4, c5, e1, htw, hnd⟩ := start_swap hc h.legal hl ha hb hids f1 f2
  refine ⟨t1.alloc.data, ⟨hc, hl, ⟨r, hint, hb⟩, by rw [← slotCount_ids hids]; exact h.fits, ?_⟩, fun i hi => (hnd i hi).trans (h.counts_built hi).symm⟩
  obtain ⟨a1, a2, a3, -⟩ := h.start
  have hf := h.fits
  cases h.builds with
  | @multi _ _ W hW hbm =>
    unfold treeRoom at hf
    rw [hW] at hf
    have hf : c.L.Fits (Conc.multiBound (slotCount adds) trees W) := hf
    obtain ⟨s1', x, k1, st, hfin, k2⟩ := hbm
    rw [hs1] at k1
    injection k1 with k1
    subst k1
    have hroom := hf.mono (Conc.room_le (slotCount adds) (lastAdded adds) trees W)
    have hg := Conc.start_good hc c1 c2 c3 c4 c5 trees W hroom
    obtain ⟨G, g1, -⟩ := Conc.multi_grown hc a1 a2 a3 trees W hf hs1 st hfin
    have hnd1 : ∀ i, i < slotCount adds → ndAt c.L t1.alloc.data i = ndAt c.L s1.alloc.data i := htw.count
    have twin : ∀ i, i < slotCount adds → 1 ≤ ndAt c.L s1.alloc.data i → Conc.Twin c fin s1.alloc.data t1.alloc.data (slotCount adds) i := by
      intro i hi h1
      have hit : IsItem c.L s1.alloc.data (slotCount adds) i := by
        refine ⟨hi, ?_⟩
        have := c2.nd i hi
        split at this <;> omega
      exact ⟨hi, htw.here i hit, htw.there i hit⟩
    obtain ⟨st', -⟩ := Conc.steps_swap hc (T := t1.alloc.data) hroom hg (by
      intro p hp
      obtain ⟨w, -, rfl⟩ := List.mem_map.1 hp
      have hni : s1.nItems = slotCount adds := c1.nItems
      dsimp only
      rw [hni]
      exact Conc.thread_blind hL D hf0 hnd1 twin _ _ _) st
    have hstart : (startWorkers s1 trees W).swap t1.alloc.data (slotCount adds) = startWorkers t1 trees W := by
      conv_rhs => rw [e1]
      rfl
    refine .multi hW ⟨t1, x.swap t1.alloc.data (slotCount adds), ht1, hstart ▸ st', hfin, ?_⟩
    have htwx : x.idx.Twinned fin t1.alloc.data (slotCount adds) := by
      have hb : ∀ i, i < slotCount adds → ∀ j, j < c.L.nodeSize → x.idx.alloc.data (i * c.L.nodeSize + j) = s1.alloc.data (i * c.L.nodeSize + j) := by
        intro i hi j hj
        obtain ⟨ts, pub, -, I⟩ := hg.steps hc st
        exact I.items _ (Idx.node_lt hi hj)
      have hs : ∀ i, i < slotCount adds → ndAt c.L x.idx.alloc.data i = ndAt c.L s1.alloc.data i := fun i hi => SameNode.nd hL (hb i hi)
      have hit : ∀ i, IsItem c.L x.idx.alloc.data (slotCount adds) i → IsItem c.L s1.alloc.data (slotCount adds) i :=
        fun i hi => ⟨hi.1, by rw [← hs i hi.1]; exact hi.2⟩
      refine ⟨fun i hi => ?_, fun i hi => htw.there i (hit i hi), fun i hi => by rw [hnd1 i hi, hs i hi]⟩
      obtain ⟨v, h1, h2⟩ := htw.here i (hit i hi)
      exact ⟨v, h1.congr hL (hb i hi.1), h2⟩
    exact Idx.buildFinish_swap hc G.inv htwx (hf.mono g1) G.roots_lt k2

/-- **C107**: two runs over different vectors that add the same indexes in the same order and start with the same
generator: if the distance does not see the data, `Build` makes the same trees, the same nodes, draws the same number of
random sides and counts the same. -/
theorem C107_same_trees (D : DataBlind c fin blank) (hf0 : 0 < c.L.f) (h : Session c numCPU .single adds trees workers s s')
    (g : Session c numCPU' .single adds' trees workers' t t') {r : c.R.σ} {hint : Nat}
    (ha : (Idx.new c r hint).addAll adds = .ok s) (hb : (Idx.new c r hint).addAll adds' = .ok t)
    (hids : adds.map Prod.fst = adds'.map Prod.fst) (f1 : ∀ p ∈ adds, ∀ x ∈ p.2, fin x) (f2 : ∀ p ∈ adds', ∀ x ∈ p.2, fin x) :
    t'.roots = s'.roots ∧ t'.nNodes = s'.nNodes ∧ t'.nodesSize = s'.nodesSize ∧ t'.batchMaxNNS = s'.batchMaxNNS ∧ t'.rng = s'.rng ∧
      ∀ x, slotCount adds * c.L.nodeSize ≤ x → t'.alloc.data x = s'.alloc.data x := by
  obtain ⟨T, rfl, -⟩ := build_swap D hf0 h g ha hb hids f1 f2
  exact ⟨rfl, rfl, rfl, rfl, rfl, fun x hx => swapBytes_above hx _⟩

/-- **C107**, several workers: whatever index a schedule makes over some vectors, there is a schedule that makes the same trees and the same nodes over other vectors. -/
theorem C107_multi (D : DataBlind c fin blank) (hf0 : 0 < c.L.f) (h : Session c numCPU .multi adds trees workers s s')
    (hl : LegalAdds c adds') {r : c.R.σ} {hint : Nat}
    (ha : (Idx.new c r hint).addAll adds = .ok s) (hb : (Idx.new c r hint).addAll adds' = .ok t)
    (hids : adds.map Prod.fst = adds'.map Prod.fst) (f1 : ∀ p ∈ adds, ∀ x ∈ p.2, fin x) (f2 : ∀ p ∈ adds', ∀ x ∈ p.2, fin x) :
    ∃ t', Session c numCPU .multi adds' trees workers t t' ∧
      t'.roots = s'.roots ∧ t'.nNodes = s'.nNodes ∧ t'.nodesSize = s'.nodesSize ∧ t'.batchMaxNNS = s'.batchMaxNNS ∧
      ∀ x, slotCount adds * c.L.nodeSize ≤ x → t'.alloc.data x = s'.alloc.data x := by
  obtain ⟨T, g, -⟩ := build_swap_multi D hf0 h hl ha hb hids f1 f2
  exact ⟨_, g, rfl, rfl, rfl, rfl, fun x hx => swapBytes_above hx _⟩

end Session

namespace Search
variable {c : Cfg}

/-- Candidates are collected from the nodes behind the items. -/
theorem collect_swap (hc : c.WF) {mem mem' : Block} {n N : Nat}
    (hnode : ∀ i, i < N → getNode c.L mem i = .ok (i * c.L.nodeSize)) (hnode' : ∀ i, i < N → getNode c.L mem' i = .ok (i * c.L.nodeSize))
    (hslot : ∀ i, i < n → ndAt c.L mem.get i = 0 ∨ ndAt c.L mem.get i = 1) (hcount : ∀ i, i < n → ndAt c.L mem'.get i = ndAt c.L mem.get i)
    (hsame : ∀ i, n ≤ i → SameNode c.L mem.get mem'.get i)
    (hdown : ∀ i, n ≤ i → i < N → Downward c.L mem.get n i) (q : List c.N.V) (budget : Int) (fuel : Nat) :
    ∀ {Q : List (c.N.V × Nat)} {acc : List Nat}, (∀ p ∈ Q, p.2 < N) →
      collect mem' n q budget fuel Q acc = collect mem n q budget fuel Q acc := by
  have hL := hc.layout
  have hK2 := hL.K_ge
  have hnd : ∀ i, ndAt c.L mem'.get i = ndAt c.L mem.get i := by
    intro i
    by_cases hi : i < n
    · exact hcount i hi
    · exact ((hsame i (by omega)).nd hL).symm
  induction fuel with
  | zero => intro Q acc _; rfl
  | succ fuel ih =>
    intro Q acc hg
    unfold collect
    by_cases hb : (acc.length : Int) < budget
    · rw [if_pos hb, if_pos hb]
      cases p1 : Heap.pop (pairLess c.N) Q with
      | none => rfl
      | some x =>
        obtain ⟨⟨d, i⟩, R⟩ := x
        dsimp only
        have hperm := Heap.pop_perm _ _ _ _ p1
        have hi : i < N := hg (d, i) (hperm.mem_iff.1 (by simp))
        have hgR : ∀ p ∈ R, p.2 < N := fun p hp => hg p (hperm.mem_iff.1 (by simp [hp]))
        rw [hnode i hi, hnode' i hi]
        simp only [bind, Except.bind]
        have e : Node.nDesc c.L mem'.get (i * c.L.nodeSize) = Node.nDesc c.L mem.get (i * c.L.nodeSize) := hnd i
        rw [e]
        by_cases hit : Node.nDesc c.L mem.get (i * c.L.nodeSize) = 1 ∧ i < n
        · rw [if_pos hit, if_pos hit]
          exact ih hgR
        · rw [if_neg hit, if_neg hit]
          by_cases hK : Node.nDesc c.L mem.get (i * c.L.nodeSize) ≤ c.L.K
          · rw [if_pos hK, if_pos hK]
            have hch : Node.getChildren c.L mem'.get (i * c.L.nodeSize) = Node.getChildren c.L mem.get (i * c.L.nodeSize) := by
              by_cases hin : n ≤ i
              · exact ((hsame i hin).children hL hK).symm
              · rcases hslot i (by omega) with h0 | h1
                · unfold Node.getChildren
                  rw [e, show Node.nDesc c.L mem.get (i * c.L.nodeSize) = 0 from h0]
                  rfl
                · exact absurd ⟨h1, by omega⟩ hit
            rw [hch]
            exact ih hgR
          · rw [if_neg hK, if_neg hK]
            have hin : n ≤ i := by
              by_contra hlt
              rcases hslot i (by omega) with h0 | h0
              · have h0 : Node.nDesc c.L mem.get (i * c.L.nodeSize) = 0 := h0
                omega
              · exact hit ⟨h0, by omega⟩
            obtain ⟨d1, d2⟩ := (hdown i hin hi).2.1 (by
              show c.L.K < Node.nDesc c.L mem.get (i * c.L.nodeSize)
              omega)
            rw [← hc.margin mem.get (i * c.L.nodeSize) mem'.get (i * c.L.nodeSize) q (hsame i hin)]
            cases c.D.margin mem.get (i * c.L.nodeSize) q with
            | error e => rfl
            | ok m =>
              dsimp only
              have c0 : Node.child c.L mem'.get (i * c.L.nodeSize) 0 = Node.child c.L mem.get (i * c.L.nodeSize) 0 :=
                ((hsame i hin).child hL (by omega)).symm
              have c1 : Node.child c.L mem'.get (i * c.L.nodeSize) 1 = Node.child c.L mem.get (i * c.L.nodeSize) 1 :=
                ((hsame i hin).child hL (by omega)).symm
              rw [c0, c1]
              refine ih ?_
              intro p hp
              rcases List.mem_cons.1 ((Heap.push_perm _ _ _).mem_iff.1 hp) with rfl | hp
              · show childAt c.L mem.get i 0 < N
                omega
              · rcases List.mem_cons.1 ((Heap.push_perm _ _ _).mem_iff.1 hp) with rfl | hp
                · show childAt c.L mem.get i 1 < N
                  omega
                · exact hgR p hp
    · rw [if_neg hb, if_neg hb]

end Search

namespace Session
variable {c : Cfg} {blank : Bytes → Prop} {numCPU numCPU' : Nat} {adds adds' : List (Nat × List c.N.V)} {trees workers workers' : Int} {s s' t t' : Idx c}

theorem blind_of_swap {pol pol' : BuildPolicy} {K : c.N.Canon} (hN : c.N.Lawful) (P : PrefixMargins c K) (hf : c.L.f ≤ c.L.offV)
    (h : Session c numCPU pol adds trees workers s s')
    (g : Session c numCPU' pol' adds' trees workers' t t')
    (hids : adds.map Prod.fst = adds'.map Prod.fst)
    (hsw : ∃ T, t' = s'.swap T (slotCount adds) ∧ ∀ i, i < slotCount adds → ndAt c.L T i = ndAt c.L s'.alloc.data i)
    (w : World) (k b : Int) :
    ∃ A : List Nat, A.Nodup ∧ (∀ i ∈ A, i ∈ adds.map Prod.fst) ∧
      ∀ query, GoodQuery c query → (∀ x ∈ query, K.fin x) → ∀ fuel ctx ids ds ctx',
        (s'.getNnsByVector fuel w query k b ctx = .ok (ids, ds, ctx') →
          TopK c.N c.D.normalizedDistance (itemDist c (lastAdded adds) query) A k.toNat ids ds) ∧
        (t'.getNnsByVector fuel w query k b ctx = .ok (ids, ds, ctx') →
          TopK c.N c.D.normalizedDistance (itemDist c (lastAdded adds') query) A k.toNat ids ds) := by
  classical
  have hc := h.wf
  obtain ⟨N0, B, -⟩ := h.built
  obtain ⟨N0', B', -⟩ := g.built
  obtain ⟨ts, S, -⟩ := h.searchable w
  obtain ⟨ts', S', -⟩ := g.searchable w
  obtain ⟨T, hT, hcount⟩ := hsw
  have hN0 := B.nNodes
  -- the two ways to look
  have hroots : t'.roots = s'.roots := by rw [hT]; rfl
  have hitems : t'.nItems = s'.nItems := by rw [hT]; rfl
  have hnn : t'.nNodes = s'.nNodes := by rw [hT]; rfl
  have both : ∃ N, (∀ i, i < N → getNode c.L (s'.mem w) i = .ok (i * c.L.nodeSize)) ∧
      (∀ i, i < N → getNode c.L (t'.mem w) i = .ok (i * c.L.nodeSize)) ∧
      (∀ i, i < s'.nItems → ndAt c.L (s'.mem w).get i = 0 ∨ ndAt c.L (s'.mem w).get i = 1) ∧
      (∀ i, i < s'.nItems → ndAt c.L (t'.mem w).get i = ndAt c.L (s'.mem w).get i) ∧
      (∀ i, s'.nItems ≤ i → i < N → Downward c.L (s'.mem w).get s'.nItems i) ∧
      (0 < N → ∀ i, s'.nItems ≤ i → SameNode c.L (s'.mem w).get (t'.mem w).get i) ∧ (∀ r ∈ s'.roots, r < N) := by
    by_cases h0 : 0 < s'.nNodes
    · obtain ⟨m1, -⟩ := B.mem_eq w h0
      obtain ⟨m2, -⟩ := B'.mem_eq w (by omega)
      refine ⟨N0, fun i hi => B.getNode w (by omega), fun i hi => B'.getNode w (by omega), ?_, ?_, ?_, ?_, fun r hr => (B.roots_lt r hr).2⟩
      · intro i hi
        rw [m1]
        exact B.nd_slot hc (by rwa [B.nItems] at hi)
      · intro i hi
        rw [B.nItems] at hi
        rw [m1, m2, hT]
        exact (Idx.swap_nd_below hc.layout hi).trans (hcount i hi)
      · intro i h1 h2
        rw [m1, B.nItems]
        exact B.downward i (by rwa [B.nItems] at h1) h2
      · intro _ i hi j hj
        rw [B.nItems] at hi
        rw [m1, m2, hT]
        exact (swapBytes_above (by have := Nat.mul_le_mul_right c.L.nodeSize hi; omega) _).symm
    · have hr : s'.roots = [] := List.length_eq_zero_iff.1 (by omega)
      have hn : s'.nItems = 0 := by rw [B.nItems]; have := B.n_le; omega
      refine ⟨0, fun i hi => absurd hi (Nat.not_lt_zero _), fun i hi => absurd hi (Nat.not_lt_zero _), fun i hi => absurd hi (by omega),
        fun i hi => absurd hi (by omega), fun i _ hi => absurd hi (Nat.not_lt_zero _), fun h => absurd h (Nat.lt_irrefl _), by rw [hr]; simp⟩
  obtain ⟨N, n1, n2, n3, n4, n5, n6, n7⟩ := both
  have hQ : ∀ p ∈ Search.initQueue c s'.roots, p.2 < N := by
    intro p hp
    obtain ⟨r, hr', rfl⟩ := List.mem_map.1 ((Search.initQueue_perm _).mem_iff.1 hp)
    exact n7 r hr'
  have swapped : ∀ q budget fuel, Search.collect (t'.mem w) s'.nItems q budget fuel (Search.initQueue c s'.roots) [] =
      Search.collect (s'.mem w) s'.nItems q budget fuel (Search.initQueue c s'.roots) [] := by
    intro q budget fuel
    by_cases h0 : 0 < N
    · exact Search.collect_swap hc n1 n2 n3 n4 (n6 h0) n5 q budget fuel hQ
    · have hr : s'.roots = [] := by
        rcases hr : s'.roots with _ | ⟨r, rs⟩
        · rfl
        · have := n7 r (by rw [hr]; simp)
          omega
      rw [hr]
      cases fuel <;> rfl
  let Q : List Nat → Prop := fun col => ∃ q fuel, GoodQuery c q ∧ (∀ x ∈ q, K.fin x) ∧
    Search.collect (s'.mem w) s'.nItems q (if b = -1 then k * s'.roots.length else b) fuel (Search.initQueue c s'.roots) [] = .ok col
  have huniq : ∀ {col q fuel}, GoodQuery c q → (∀ x ∈ q, K.fin x) →
      Search.collect (s'.mem w) s'.nItems q (if b = -1 then k * s'.roots.length else b) fuel (Search.initQueue c s'.roots) [] = .ok col →
      ∀ (hex : ∃ col, Q col), hex.choose = col := by
    intro col q fuel hq hfq hcol hex
    obtain ⟨q', fuel', g1, g2, g3⟩ := hex.choose_spec
    rw [Search.collect_prefix_query hc P n1 n3 n5 n7 (t := 0) (by omega) g1 hq g2 hfq rfl] at g3
    exact Search.collect_det g3 hcol
  refine ⟨if hex : ∃ col, Q col then itemsAmong (lastAdded adds) s'.nItems hex.choose else [], ?_, ?_, ?_⟩
  · split
    · exact itemsAmong_nodup _ _ _
    · simp
  · intro i hi
    split at hi
    · exact lastAdded_isSome_iff.1 (Search.itemsAmong_live i hi)
    · cases hi
  · intro query hq hfq fuel ctx ids ds ctx'
    constructor
    · intro hrun
      obtain ⟨done, rest, -, -, h1, h2⟩ := Search.answer hc hN S hq hrun
      have hex : ∃ col, Q col := ⟨_, query, fuel, hq, hfq, h1⟩
      rw [dif_pos hex, huniq hq hfq h1 hex]
      exact h2
    · intro hrun
      obtain ⟨done, rest, -, -, h1, h2⟩ := Search.answer hc hN S' hq hrun
      rw [hroots, hitems, swapped] at h1
      have hex : ∃ col, Q col := ⟨_, query, fuel, hq, hfq, h1⟩
      rw [dif_pos hex, huniq hq hfq h1 hex]
      have e : itemsAmong (lastAdded adds') t'.nItems (done.flatMap Tree.items) = itemsAmong (lastAdded adds) s'.nItems (done.flatMap Tree.items) := by
        unfold itemsAmong
        rw [hitems]
        refine List.filter_congr fun i _ => ?_
        rw [lastAdded_ids hids]
      rw [e] at h2
      exact h2

/-- **C108**: for vectors so short that neither the trees nor the descent see them, what a search looks at is one set of items for
all data (with the same indexes) and all finite queries. -/
theorem C108_blind {K : c.N.Canon} (D : DataBlind c K.fin blank) (hN : c.N.Lawful) (P : PrefixMargins c K) (hf : c.L.f ≤ c.L.offV) (hf0 : 0 < c.L.f)
    (h : Session c numCPU .single adds trees workers s s')
    (g : Session c numCPU' .single adds' trees workers' t t') {r : c.R.σ} {hint : Nat}
    (ha : (Idx.new c r hint).addAll adds = .ok s) (hb : (Idx.new c r hint).addAll adds' = .ok t)
    (hids : adds.map Prod.fst = adds'.map Prod.fst) (f1 : ∀ p ∈ adds, ∀ x ∈ p.2, K.fin x) (f2 : ∀ p ∈ adds', ∀ x ∈ p.2, K.fin x)
    (w : World) (k b : Int) :
    ∃ A : List Nat, A.Nodup ∧ (∀ i ∈ A, i ∈ adds.map Prod.fst) ∧
      ∀ query, GoodQuery c query → (∀ x ∈ query, K.fin x) → ∀ fuel ctx ids ds ctx',
        (s'.getNnsByVector fuel w query k b ctx = .ok (ids, ds, ctx') →
          TopK c.N c.D.normalizedDistance (itemDist c (lastAdded adds) query) A k.toNat ids ds) ∧
        (t'.getNnsByVector fuel w query k b ctx = .ok (ids, ds, ctx') →
          TopK c.N c.D.normalizedDistance (itemDist c (lastAdded adds') query) A k.toNat ids ds) :=
  blind_of_swap hN P hf h g hids (build_swap D hf0 h g ha hb hids f1 f2) w k b

/-- **C108**, several workers: for every index a schedule makes over some vectors, there is a schedule over other vectors such that searches of both look at
the same items, whatever the query. -/
theorem C108_multi {K : c.N.Canon} (D : DataBlind c K.fin blank) (hN : c.N.Lawful) (P : PrefixMargins c K) (hf : c.L.f ≤ c.L.offV) (hf0 : 0 < c.L.f)
    (h : Session c numCPU .multi adds trees workers s s') (hl : LegalAdds c adds') {r : c.R.σ} {hint : Nat}
    (ha : (Idx.new c r hint).addAll adds = .ok s) (hb : (Idx.new c r hint).addAll adds' = .ok t)
    (hids : adds.map Prod.fst = adds'.map Prod.fst) (f1 : ∀ p ∈ adds, ∀ x ∈ p.2, K.fin x) (f2 : ∀ p ∈ adds', ∀ x ∈ p.2, K.fin x) :
    ∃ t', Session c numCPU .multi adds' trees workers t t' ∧ ∀ (w : World) (k b : Int),
    ∃ A : List Nat, A.Nodup ∧ (∀ i ∈ A, i ∈ adds.map Prod.fst) ∧
      ∀ query, GoodQuery c query → (∀ x ∈ query, K.fin x) → ∀ fuel ctx ids ds ctx',
        (s'.getNnsByVector fuel w query k b ctx = .ok (ids, ds, ctx') →
          TopK c.N c.D.normalizedDistance (itemDist c (lastAdded adds) query) A k.toNat ids ds) ∧
        (t'.getNnsByVector fuel w query k b ctx = .ok (ids, ds, ctx') →
          TopK c.N c.D.normalizedDistance (itemDist c (lastAdded adds') query) A k.toNat ids ds) := by
  obtain ⟨T, g, hT⟩ := build_swap_multi D hf0 h hl ha hb hids f1 f2
  exact ⟨_, g, blind_of_swap hN P hf h g hids ⟨T, rfl, hT⟩⟩

end Session

/-! ### the indexes of the repository -/

/-- `float32` angular indexes of up to 12 components. -/
theorem angular32_dataBlind {f : Nat} (hf : f ≤ 12) :
    DataBlind (angular32 4 f) canon32.fin (fun m => Node.vec (angular32 4 f).L (bvCodec 4) m 0 = zeroVec ieee32 (angular32 4 f).L.f) :=
  angular_dataBlind (angular32_wf (Or.inl rfl) (by omega)).layout ieee32_zeroLaws canon32 (by decide) hf

/-- `float64` angular indexes of up to 16 components. -/
theorem angular64_dataBlind {f : Nat} (hf : f ≤ 16) :
    DataBlind (angular64 4 f) canon64.fin (fun m => Node.vec (angular64 4 f).L (bvCodec 8) m 0 = zeroVec ieee64 (angular64 4 f).L.f) :=
  angular_dataBlind (angular64_wf (Or.inl rfl) (by omega)).layout ieee64_zeroLaws canon64 (by decide) hf

/-- `float32` dot product indexes of up to 16 components. -/
theorem dot32_dataBlind {f : Nat} (hf : f ≤ 16) :
    DataBlind (dot32 4 f) canon32.fin (fun m => Node.vec (dot32 4 f).L (bvCodec 4) m 0 = zeroVec ieee32 (dot32 4 f).L.f ∧
      Node.dotFactor (dot32 4 f).L (bvCodec 4) m 0 = ieee32.zero) :=
  dot_dataBlind (dot32_wf (Or.inl rfl) (by omega)).layout ieee32_zeroLaws canon32 (by decide) hf

/-- `float64` dot product indexes of up to 24 components. -/
theorem dot64_dataBlind {f : Nat} (hf : f ≤ 24) :
    DataBlind (dot64 4 f) canon64.fin (fun m => Node.vec (dot64 4 f).L (bvCodec 8) m 0 = zeroVec ieee64 (dot64 4 f).L.f ∧
      Node.dotFactor (dot64 4 f).L (bvCodec 8) m 0 = ieee64.zero) :=
  dot_dataBlind (dot64_wf (Or.inl rfl) (by omega)).layout ieee64_zeroLaws canon64 (by decide) hf

/-- C107, C108: two data sets of 20 items with vectors of length 12, and finite queries. -/
def mirrorAdds : List (Nat × List ieee32.V) := (longAdds 20).map fun p => (p.1, p.2.reverse)

example : ∃ s s' t t', Session (angular32 4 12) 1 .single (longAdds 20) 3 1 s s' ∧ Session (angular32 4 12) 1 .single mirrorAdds 3 1 t t' ∧
    (Idx.new (angular32 4 12) (Kiss32.new 0) 0).addAll (longAdds 20) = .ok s ∧ (Idx.new (angular32 4 12) (Kiss32.new 0) 0).addAll mirrorAdds = .ok t ∧
    (longAdds 20).map Prod.fst = mirrorAdds.map Prod.fst ∧ longAdds 20 ≠ mirrorAdds ∧ (∀ p ∈ longAdds 20, ∀ x ∈ p.2, canon32.fin x) ∧
    (∀ p ∈ mirrorAdds, ∀ x ∈ p.2, canon32.fin x) ∧ 0 < (angular32 4 12).L.f ∧ (angular32 4 12).L.f ≤ (angular32 4 12).L.offV ∧
    (angular32 4 12).L.K < slotCount (longAdds 20) := by
  have hx : Index32 (angular32 4 12) := .angular32 (by decide) (by decide)
  obtain ⟨s, s', h1, h2, -⟩ := C76_build (c := angular32 4 12) hx 1 (longAdds 20) (legalAdds_of (by decide +kernel)) (Kiss32.new 0) 0 3 1 (by decide +kernel)
  obtain ⟨t, t', g1, g2, -⟩ := C76_build (c := angular32 4 12) hx 1 mirrorAdds (legalAdds_of (by decide +kernel)) (Kiss32.new 0) 0 3 1 (by decide +kernel)
  exact ⟨s, s', t, t', h2, g2, h1, g1, by decide +kernel, by decide +kernel, by decide +kernel, by decide +kernel, by decide, by decide, by decide +kernel⟩

/-- C107, C108 with two workers. -/
example : ∃ s s' t, Session (oracle32 12) 8 .multi (longAdds 20) 3 2 s s' ∧ LegalAdds (oracle32 12) mirrorAdds ∧
    (∃ r hint, (Idx.new (oracle32 12) r hint).addAll (longAdds 20) = .ok s ∧ (Idx.new (oracle32 12) r hint).addAll mirrorAdds = .ok t) ∧
    (longAdds 20).map Prod.fst = mirrorAdds.map Prod.fst ∧ longAdds 20 ≠ mirrorAdds ∧ (∀ p ∈ longAdds 20, ∀ x ∈ p.2, canon32.fin x) ∧
    (∀ p ∈ mirrorAdds, ∀ x ∈ p.2, canon32.fin x) ∧ 0 < (oracle32 12).L.f ∧ (oracle32 12).L.f ≤ (oracle32 12).L.offV ∧
    (oracle32 12).L.K < slotCount (longAdds 20) ∧
    DataBlind (oracle32 12) canon32.fin (fun m => Node.vec (oracle32 12).L (bvCodec 4) m 0 = zeroVec ieee32 (oracle32 12).L.f) := by
  have hc : (oracle32 12).WF := oracle32_wf (by decide)
  have hf : (oracle32 12).L.Fits (treeRoom 8 .multi (slotCount (longAdds 20)) 3 2) := by decide +kernel
  obtain ⟨s, s', h⟩ := multi_session hc (Conc.angular_total oracle_inRange (by decide))
    (Conc.angular_canBalance (by decide)) (fun _ => 0) (longAdds 20) (legalAdds_of (by decide +kernel)) 8 3 2 (W := 2) (by decide) hf
  obtain ⟨r, hint, ha⟩ := h.added
  have hl : LegalAdds (oracle32 12) mirrorAdds := legalAdds_of (by decide +kernel)
  obtain ⟨t, ht, -⟩ := addAll_spec hc mirrorAdds _ _ _ (Idx.ItemInv.new (oracle32 12) hc.layout r hint) hl
  exact ⟨s, s', t, h, hl, ⟨r, hint, ha, ht⟩, by decide +kernel, by decide +kernel, by decide +kernel, by decide +kernel, by decide, by decide, by decide +kernel,
    angular_dataBlind hc.layout ieee32_zeroLaws canon32 (by decide) (by decide)⟩

end Annoy
