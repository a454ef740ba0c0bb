import Verif.Proof.Imprint
import Verif.Proof.Roomy
import Verif.Props.DataBlind
import Verif.Props.Finish
/-!
# C111: the order and number of AddItem calls leave no trace

`AddItem` may be called in any order and more than once for an index.  What `Build` makes of the items, and hence the file that is saved and the
answers of searches, depends only on the last vector given for each index.
-/
namespace Annoy
namespace Idx
variable {c : Cfg}

theorem addAll_imprint (hc : c.WF) (adds : List (Nat × List c.N.V)) : ∀ {s s' : Idx c} {m : Nat → Option (List c.N.V)} {n : Nat},
    s.ItemInv m n → s.Imprint m → LegalAdds c adds → s.addAll adds = .ok s' → s'.Imprint fun i => (lastAdded adds i).or (m i) := by
  induction adds with
  | nil => intro s s' m n _ h _ hs; cases hs; simpa [lastAdded] using h
  | cons p adds ih =>
    obtain ⟨i, v⟩ := p
    intro s s' m n hi h hl hs
    have hp := hl (i, v) (by simp)
    obtain ⟨s1, h1, h2, -⟩ := hi.addItem hc i v hp.1 hp.2
    unfold addAll at hs
    rw [h1] at hs
    have := ih h2 (h.addItem hc hi hp.1 hp.2 h1) (fun q hq => hl q (by simp [hq])) hs
    have e1 : (fun j => (lastAdded ((i, v) :: adds) j).or (m j))
        = fun j => (lastAdded adds j).or (if j = i then some v else m j) := by
      funext j
      have : lastAdded ((i, v) :: adds) j = lastAdded ([(i, v)] ++ adds) j := rfl
      rw [this, lastAdded_append]
      have h7 : lastAdded [(i, v)] j = if j = i then some v else none := by
        unfold lastAdded
        by_cases hji : j = i
        · subst hji; simp
        · simp [hji, Ne.symm hji]
      rw [h7]
      cases lastAdded adds j <;> by_cases hji : j = i <;> simp [hji]
    rw [e1]
    exact this

end Idx

/-- The number of slots is given by the table. -/
theorem slotCount_table {V : Type} {adds adds' : List (Nat × List V)} (h : ∀ i, lastAdded adds i = lastAdded adds' i) :
    slotCount adds = slotCount adds' := by
  have key : ∀ {adds adds' : List (Nat × List V)}, (∀ i, lastAdded adds i = lastAdded adds' i) → slotCount adds ≤ slotCount adds' := by
    intro adds adds' h
    have : ∀ l : List (Nat × List V), (∀ p ∈ l, p.1 < slotCount adds') → slotCount l ≤ slotCount adds' := by
      intro l
      induction l with
      | nil => intro _; exact Nat.zero_le _
      | cons p l ih =>
        intro hl
        have h1 := ih fun q hq => hl q (by simp [hq])
        have h2 := hl p (by simp)
        show max (p.1 + 1) (slotCount l) ≤ _
        omega
    refine this adds fun p hp => lastAdded_lt _ _ ?_
    rw [← h, lastAdded_isSome_iff]
    exact List.mem_map_of_mem hp
  exact le_antisymm (key h) (key fun i => (h i).symm)

/-- Calls for distinct indexes may be exchanged. -/
theorem lastAdded_perm {V : Type} {adds adds' : List (Nat × List V)} (hp : adds.Perm adds') (hd : (adds.map Prod.fst).Nodup) (i : Nat) :
    lastAdded adds i = lastAdded adds' i := by
  have key : ∀ {l : List (Nat × List V)}, (l.map Prod.fst).Nodup → ∀ v, lastAdded l i = some v ↔ (i, v) ∈ l := by
    intro l hl v
    constructor
    · exact lastAdded_mem
    · intro hm
      obtain ⟨u, hu⟩ := Option.isSome_iff_exists.1 (lastAdded_isSome_iff.2 (List.mem_map_of_mem hm : (i, v).1 ∈ l.map Prod.fst))
      have := List.inj_on_of_nodup_map hl (lastAdded_mem hu) hm rfl
      rw [hu]
      simpa using this
  ext v
  rw [key hd, key ((hp.map _).nodup_iff.1 hd), hp.mem_iff]

namespace Session
variable {c : Cfg} {numCPU numCPU' : Nat} {adds adds' : List (Nat × List c.N.V)} {trees workers workers' : Int} {s s' t t' : Idx c}
  {r : c.R.σ} {hint hint' : Nat}

theorem build_roomy (h : Session c numCPU .single adds trees workers s s') : ∃ rf tf lf, s.roomy.build rf tf lf trees = .ok s'.roomy := by
  obtain ⟨a1, a2, a3, a4⟩ := h.start
  obtain ⟨s1, hs1, c1, c2, c3, c4, c5, -⟩ := Idx.buildStart_spec h.wf a1 a2
  have hfit := h.fits
  cases h.builds with
  | single rf tf lf hb =>
    refine ⟨rf, tf, lf, ?_⟩
    unfold Idx.build at hb ⊢
    rw [hs1] at hb
    have e : s.roomy.buildStart = .ok s1.roomy := by
      unfold Idx.buildStart at hs1 ⊢
      rw [a1.loaded, a2] at hs1
      rw [show s.roomy.loaded = false from a1.loaded, show s.roomy.built = false from a2]
      simp only [Bool.false_eq_true, if_false, Except.ok.injEq] at hs1 ⊢
      rw [← hs1]
      rfl
    rw [e]
    exact Idx.buildRest_roomy h.wf c1 c2 c3 (c5.trans a3) hfit hb

theorem imprint (h : Session c numCPU .single adds trees workers s s') (ha : (Idx.new c r hint).addAll adds = .ok s) :
    s.Imprint (lastAdded adds) := by
  simpa using Idx.addAll_imprint h.wf adds (Idx.ItemInv.new c h.wf.layout r hint) (Idx.Imprint.new r hint) h.legal ha

theorem fields (ha : (Idx.new c r hint).addAll adds = .ok s) : s.rng = r ∧ s.batchMaxNNS = 0 ∧ s.indexMemory = none := by
  suffices key : ∀ (adds : List (Nat × List c.N.V)) (s0 : Idx c), s0.addAll adds = .ok s →
      s.rng = s0.rng ∧ s.batchMaxNNS = s0.batchMaxNNS ∧ s.indexMemory = s0.indexMemory from key adds _ ha
  intro adds
  induction adds with
  | nil => intro s0 h; cases h; exact ⟨rfl, rfl, rfl⟩
  | cons p adds ih =>
    intro s0 h
    obtain ⟨i, v⟩ := p
    unfold Idx.addAll at h
    cases h1 : s0.addItem i v with
    | error e => rw [h1] at h; cases h
    | ok s1 =>
      rw [h1] at h
      obtain ⟨e1, e2, e3⟩ := ih s1 h
      rw [e1, e2, e3]
      unfold Idx.addItem at h1
      have ea : ∀ k, (s0.allocateSize k).rng = s0.rng ∧ (s0.allocateSize k).batchMaxNNS = s0.batchMaxNNS ∧
          (s0.allocateSize k).indexMemory = s0.indexMemory := by
        intro k
        unfold Idx.allocateSize
        split <;> exact ⟨rfl, rfl, rfl⟩
      split at h1
      · cases h1
      · split at h1
        · cases h1
        · simp only [bind, Except.bind] at h1
          split at h1
          · cases h1
          · split at h1 <;> · cases h1; exact ea _

theorem roomy_eq (h : Session c numCPU .single adds trees workers s s') (g : Session c numCPU' .single adds' trees workers' t t')
    (ha : (Idx.new c r hint).addAll adds = .ok s) (hb : (Idx.new c r hint').addAll adds' = .ok t)
    (htab : ∀ i, lastAdded adds i = lastAdded adds' i) : s'.roomy = t'.roomy := by
  have hn := slotCount_table htab
  obtain ⟨a1, a2, a3, a4⟩ := h.start
  obtain ⟨b1, b2, b3, b4⟩ := g.start
  obtain ⟨f1, f2, f3⟩ := fields ha
  obtain ⟨g1, g2, g3⟩ := fields hb
  have hd : s.alloc.data = t.alloc.data := by
    refine Idx.Imprint.data_eq h.wf.layout (h.imprint ha) ?_
    have := g.imprint hb
    rwa [show lastAdded adds' = lastAdded adds from funext fun i => (htab i).symm] at this
  have e : s.roomy = t.roomy := by
    have i1 := a1.nItems
    have i2 := b1.nItems
    have l1 := a1.loaded
    have l2 := b1.loaded
    clear a1 b1 h g ha hb
    obtain ⟨x1, x2, x3, x4, x5, x6, x7, x8, x9, x10, x11⟩ := s
    obtain ⟨y1, y2, y3, y4, y5, y6, y7, y8, y9, y10, y11⟩ := t
    unfold Idx.roomy
    dsimp only at *
    subst a2 a3 a4 b2 b3 b4 f1 f2 f3 g1 g2 g3 i1 i2 l1 l2
    rw [hd, hn]
  obtain ⟨rf, tf, lf, h1⟩ := h.build_roomy
  obtain ⟨rf', tf', lf', h2⟩ := g.build_roomy
  rw [e] at h1
  exact Idx.build_det h1 h2

/-- **C111**: two indexes with the same generator that were given, in whatever order, with whatever repetitions and whatever hints, the same
last vector for each index: `Build` leaves the same nodes, roots, counters and generator state. -/
theorem C111_order (h : Session c numCPU .single adds trees workers s s') (g : Session c numCPU' .single adds' trees workers' t t')
    (ha : (Idx.new c r hint).addAll adds = .ok s) (hb : (Idx.new c r hint').addAll adds' = .ok t)
    (htab : ∀ i, lastAdded adds i = lastAdded adds' i) :
    t'.nItems = s'.nItems ∧ t'.nNodes = s'.nNodes ∧ t'.roots = s'.roots ∧ t'.batchMaxNNS = s'.batchMaxNNS ∧ t'.rng = s'.rng ∧
      ∀ x, t'.alloc.data x = s'.alloc.data x := by
  have e := (h.roomy_eq g ha hb htab).symm
  have key : ∀ {β : Type} (f : Idx c → β), f t'.roomy = f s'.roomy := fun f => by rw [e]
  exact ⟨key Idx.nItems, key Idx.nNodes, key Idx.roots, key Idx.batchMaxNNS, key Idx.rng, fun x => key fun u => u.alloc.data x⟩

/-- **C111**, distinct indexes: the calls of `AddItem` may be made in any order. -/
theorem C111_perm (h : Session c numCPU .single adds trees workers s s') (g : Session c numCPU' .single adds' trees workers' t t')
    (ha : (Idx.new c r hint).addAll adds = .ok s) (hb : (Idx.new c r hint').addAll adds' = .ok t)
    (hp : adds.Perm adds') (hd : (adds.map Prod.fst).Nodup) :
    t'.nItems = s'.nItems ∧ t'.nNodes = s'.nNodes ∧ t'.roots = s'.roots ∧ t'.batchMaxNNS = s'.batchMaxNNS ∧ t'.rng = s'.rng ∧
      ∀ x, t'.alloc.data x = s'.alloc.data x := C111_order h g ha hb (lastAdded_perm hp hd)

/-- **C111**, the file: both indexes are saved as the same bytes. -/
theorem C111_file (h : Session c numCPU .single adds trees workers s s') (g : Session c numCPU' .single adds' trees workers' t t')
    (ha : (Idx.new c r hint).addAll adds = .ok s) (hb : (Idx.new c r hint').addAll adds' = .ok t)
    (htab : ∀ i, lastAdded adds i = lastAdded adds' i) (w : World) : t'.saveBytes w = s'.saveBytes w := by
  obtain ⟨N0, B, -⟩ := h.built
  obtain ⟨N0', B', -⟩ := g.built
  obtain ⟨-, e, -, -, -, hd⟩ := C111_order h g ha hb htab
  rw [B.saveBytes h.wf, B'.saveBytes h.wf, e]
  congr 2
  unfold Block.prefix
  exact readBytes_congr fun j _ => hd _

/-- **C111**, the answers: every search gives the same result with both indexes. -/
theorem C111_answers (h : Session c numCPU .single adds trees workers s s') (g : Session c numCPU' .single adds' trees workers' t t')
    (ha : (Idx.new c r hint).addAll adds = .ok s) (hb : (Idx.new c r hint').addAll adds' = .ok t)
    (htab : ∀ i, lastAdded adds i = lastAdded adds' i) (hN : c.N.Lawful) (w : World) {query : List c.N.V} (hq : GoodQuery c query)
    (fuel : Nat) (k b : Int) (ctx : Ctx c) (x : List Nat × List c.N.V × Ctx c) :
    t'.getNnsByVector fuel w query k b ctx = .ok x ↔ s'.getNnsByVector fuel w query k b ctx = .ok x := by
  suffices key : ∀ {numCPU numCPU' : Nat} {adds adds' : List (Nat × List c.N.V)} {workers workers' : Int} {s s' t t' : Idx c} {hint hint' : Nat},
      Session c numCPU .single adds trees workers s s' → Session c numCPU' .single adds' trees workers' t t' →
      (Idx.new c r hint).addAll adds = .ok s → (Idx.new c r hint').addAll adds' = .ok t → (∀ i, lastAdded adds i = lastAdded adds' i) →
      s'.getNnsByVector fuel w query k b ctx = .ok x → t'.getNnsByVector fuel w query k b ctx = .ok x from
    ⟨key g h hb ha fun i => (htab i).symm, key h g ha hb htab⟩
  clear h g ha hb htab
  intro numCPU numCPU' adds adds' workers workers' s s' t t' hint hint' h g ha hb htab hx
  have hc := h.wf
  obtain ⟨N0, B, -⟩ := h.built
  obtain ⟨N0', B', -⟩ := g.built
  obtain ⟨ts, S, -⟩ := h.searchable w
  obtain ⟨ts', S', -⟩ := g.searchable w
  obtain ⟨e1, e2, e3, -, -, hd⟩ := C111_order h g ha hb htab
  have hN0 := B.nNodes
  have hN0' := B'.nNodes
  have hdata : t'.alloc.data = s'.alloc.data := Bytes.ext' hd
  by_cases h0 : 0 < s'.nNodes
  · have m1 := B.mem_eq w h0
    have m2 := B'.mem_eq w (by omega)
    have hget : (t'.mem w).get = (s'.mem w).get := by rw [m1.1, m2.1]; exact hdata
    obtain ⟨col, c1, c2⟩ := Search.collect_of_run hx
    have hsame : Search.collect (t'.mem w) s'.nItems query (if b = -1 then k * s'.roots.length else b) fuel (Search.initQueue c s'.roots) [] = .ok col := by
      rw [← c1]
      refine Search.collect_swap hc (N := N0) (fun i hi => B.getNode w (by omega)) (fun i hi => B'.getNode w (by omega)) ?_
        (fun i _ => by rw [hget]) (fun i _ j _ => by rw [hget]) ?_ query _ fuel ?_
      · intro i hi
        rw [m1.1]
        exact B.nd_slot hc (by rwa [B.nItems] at hi)
      · intro i g1 g2
        rw [m1.1, B.nItems]
        exact B.downward i (by rwa [B.nItems] at g1) g2
      · intro p hp
        obtain ⟨q, hq', rfl⟩ := List.mem_map.1 ((Search.initQueue_perm _).mem_iff.1 hp)
        exact (B.roots_lt q hq').2
    obtain ⟨done, rest, d1, d2, d3⟩ := Search.candidates hc S' hq.margin (if b = -1 then k * t'.roots.length else b) (Nat.lt_succ_self _)
    rw [← e1, ← e3] at hsame
    have hcol := Search.collect_det hsame d1
    obtain ⟨ids, ds, ctx', r1, -⟩ := Search.run_of_collect (b := b) hc hN S' hq.length hsame (by rw [hcol]; exact Search.col_below S' d2) c2
    have hrun : t'.getNnsByVector fuel w query k b ctx = .ok (ids, ds, ctx') := r1
    rw [hrun]
    rcases Nat.le_total (t'.mem w).size (s'.mem w).size with hle | hle
    · have : s'.getNnsByVector fuel w query k b ctx = .ok (ids, ds, ctx') := by
        have := run_le (m := t'.mem w) (m' := s'.mem w) ⟨hle, hget⟩ r1
        rw [e1, e3] at this
        exact this
      rw [← this, hx]
    · have := run_le (m := s'.mem w) (m' := t'.mem w) ⟨hle, hget.symm⟩ hx
      rw [← e1, ← e3] at this
      rw [← hrun]
      exact this
  · have hr : s'.roots = [] := List.length_eq_zero_iff.1 (by omega)
    unfold Idx.getNnsByVector at hx ⊢
    rw [e1, e3, hr]
    rw [hr] at hx
    unfold Search.run at hx ⊢
    dsimp only at hx ⊢
    cases fuel with
    | zero => cases hx
    | succ fuel =>
      have hl : ∀ mem : Block, Search.loop c mem s'.nItems query (if b = -1 then k * (([] : List Nat).length : Int) else b) (fuel + 1) (Search.initQueue c []) ctx.nns 0 =
          .ok (ctx.nns, 0) := by
        intro mem
        generalize (if b = -1 then k * (([] : List Nat).length : Int) else b) = budget
        unfold Search.loop
        split <;> rfl
      rw [hl] at hx ⊢
      simp only [bind, Except.bind] at hx ⊢
      have hs : c.sortIds (List.take 0 ctx.nns) = [] := by
        have := hc.sortIds_perm (List.take 0 ctx.nns)
        rw [List.take_zero] at this ⊢
        exact this.eq_nil
      rw [hs] at hx ⊢
      exact hx

end Session
/-! ### an instance -/

/-- The twenty items backwards, item 3 first with another vector. -/
def backAdds : List (Nat × List ieee32.V) := (3, (longAdds 20).head!.2) :: (longAdds 20).reverse

example : ∃ s s' t t', Session (angular32 4 12) 1 .single (longAdds 20) 3 1 s s' ∧ Session (angular32 4 12) 2 .single backAdds 3 5 t t' ∧
    (Idx.new (angular32 4 12) (Kiss32.new 0) 0).addAll (longAdds 20) = .ok s ∧ (Idx.new (angular32 4 12) (Kiss32.new 0) 7).addAll backAdds = .ok t ∧
    (∀ i, lastAdded (longAdds 20) i = lastAdded backAdds i) ∧ s.nodesSize ≠ t.nodesSize ∧ lastAdded backAdds 3 ≠ some backAdds.head!.2 := by
  have hx : Index32 (angular32 4 12) := .angular32 (by decide) (by decide)
  obtain ⟨s, s', h1, h2, -⟩ := C76_build (c := angular32 4 12) hx 1 (longAdds 20) (legalAdds_of (by decide +kernel)) (Kiss32.new 0) 0 3 1 (by decide +kernel)
  obtain ⟨t, t', g1, g2, -⟩ := C76_build (c := angular32 4 12) hx 2 backAdds (legalAdds_of (by decide +kernel)) (Kiss32.new 0) 7 3 5 (by decide +kernel)
  refine ⟨s, s', t, t', h2, g2, h1, g1, ?_, ?_, by decide +kernel⟩
  · have hp : lastAdded (longAdds 20) = lastAdded (longAdds 20).reverse :=
      funext fun i => lastAdded_perm (List.reverse_perm _).symm (by decide +kernel) i
    intro i
    rw [hp]
    have : lastAdded backAdds i = lastAdded ([(3, (longAdds 20).head!.2)] ++ (longAdds 20).reverse) i := rfl
    rw [this, lastAdded_append]
    by_cases hi : i = 3
    · subst hi
      decide +kernel
    · have : lastAdded [(3, (longAdds 20).head!.2)] i = none := by
        unfold lastAdded
        simp [Ne.symm hi]
      rw [this, Option.or_none]
  · have k1 : ((Idx.new (angular32 4 12) (Kiss32.new 0) 0).addAll (longAdds 20)).toOption.map Idx.nodesSize = some 25 := by decide +kernel
    have k2 : ((Idx.new (angular32 4 12) (Kiss32.new 0) 7).addAll backAdds).toOption.map Idx.nodesSize = some 20 := by decide +kernel
    rw [h1] at k1
    rw [g1] at k2
    simp only [Except.toOption, Option.map_some, Option.some.injEq] at k1 k2
    omega

end Annoy
