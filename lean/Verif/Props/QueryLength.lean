import Verif.Props.SearchWitness
/-!
# C25: the length of a query is not checked
-/
namespace Annoy
namespace Search
variable {c : Cfg} {mem : Block} {n : Nat}

/-- On an index whose roots are all buckets or items, the loop does not look at the query. -/
theorem loop_leaves {query query' : List c.N.V} {budget : Int}
    (fuel : Nat) : ∀ {q : List (c.N.V × Nat)} {buf cnt}, (∀ p ∈ q, ∀ a, getNode c.L mem p.2 = .ok a → Node.nDesc c.L mem.get a ≤ c.L.K) →
    loop c mem n query budget fuel q buf cnt = loop c mem n query' budget fuel q buf cnt := by
  induction fuel with
  | zero => intro q buf cnt _; rfl
  | succ fuel ih =>
    intro q buf cnt hq
    unfold loop
    by_cases h1 : (cnt : Int) < budget
    · rw [if_pos h1, if_pos h1]
      cases hp : Heap.pop (pairLess c.N) q with
      | none => rfl
      | some v =>
        obtain ⟨⟨d, i⟩, q'⟩ := v
        have hperm := Heap.pop_perm _ _ _ _ hp
        have hq' : ∀ p ∈ q', ∀ a, getNode c.L mem p.2 = .ok a → Node.nDesc c.L mem.get a ≤ c.L.K :=
          fun p hp' => hq p (hperm.subset (by simp [hp']))
        dsimp only
        cases hg : getNode c.L mem i with
        | error e => rfl
        | ok a =>
          simp only [bind, Except.bind]
          have h2 := hq (d, i) (hperm.subset (by simp)) a hg
          split
          · split
            · exact ih hq'
            · rfl
          · split
            · exact ih hq'
            · rfl
    · rw [if_neg h1, if_neg h1]

/-- A vector is stored as the vector filled up with zeros. -/
theorem queryNode_pad (hz : c.C.enc c.N.zero = List.replicate c.C.sz 0) {query : List c.N.V} {k : Nat}
    (hl : c.L.offV + (query.length + k) * c.C.sz ≤ c.L.nodeSize) :
    queryNode c query = queryNode c (query ++ List.replicate k c.N.zero) := by
  unfold queryNode
  have h1 : query.length * c.C.sz ≤ (query.length + k) * c.C.sz := Nat.mul_le_mul_right _ (by omega)
  rw [if_pos (by omega), if_pos (by rw [List.length_append, List.length_replicate]; exact hl)]
  congr 2
  unfold Node.setVec
  have hlen : ∀ l : List c.N.V, (l.flatMap c.C.enc).length = l.length * c.C.sz := by
    intro l
    induction l with
    | nil => simp
    | cons x l ih => rw [List.flatMap_cons, List.length_append, ih, c.C.enc_length, List.length_cons]; ring
  have hzz : ∀ k, (List.replicate k c.N.zero).flatMap c.C.enc = List.replicate (k * c.C.sz) 0 := by
    intro k
    induction k with
    | zero => simp
    | succ k ih => rw [List.replicate_succ, List.flatMap_cons, ih, hz, List.replicate_append_replicate]; congr 1; ring
  apply Bytes.ext'
  intro x
  rw [List.flatMap_append, hzz, writeBytes_apply, writeBytes_apply, List.length_append, List.length_replicate]
  have hq := hlen query
  by_cases h2 : 0 + c.L.offV ≤ x ∧ x < 0 + c.L.offV + (query.flatMap c.C.enc).length
  · rw [if_pos h2, if_pos (by omega), List.getD_eq_getElem?_getD, List.getD_eq_getElem?_getD, List.getElem?_append_left (by omega)]
  · rw [if_neg h2]
    by_cases h3 : 0 + c.L.offV ≤ x ∧ x < 0 + c.L.offV + ((query.flatMap c.C.enc).length + k * c.C.sz)
    · rw [if_pos h3, List.getD_eq_getElem?_getD, List.getElem?_append_right (by omega), List.getElem?_replicate]
      split <;> rfl
    · rw [if_neg h3]

end Search

variable {c : Cfg} {numCPU : Nat} {pol : BuildPolicy} {adds : List (Nat × List c.N.V)} {trees workers : Int}
  {s s' : Idx c}

/-- **C25 is false for long queries**: whatever the index, a query longer than the vector length is never answered. -/
theorem C25_long_query (hc : c.WF) (t : Idx c) (fuel : Nat) (w : World) {query : List c.N.V} (hq : c.L.f < query.length)
    (k b : Int) (ctx : Ctx c) : ∃ e, t.getNnsByVector fuel w query k b ctx = .error e := by
  have hno : Search.queryNode c query = .error .oob := by
    unfold Search.queryNode
    rw [if_neg]
    have h1 := hc.layout.size_eq
    have h2 := hc.layout.sz_pos
    have h3 : (c.L.f + 1) * c.C.sz ≤ query.length * c.C.sz := Nat.mul_le_mul_right _ hq
    rw [Nat.add_mul, Nat.one_mul] at h3
    omega
  unfold Idx.getNnsByVector Search.run
  dsimp only
  cases hl : Search.loop c (t.mem w) t.nItems query (if b = -1 then k * t.roots.length else b) fuel
      (Search.initQueue c t.roots) ctx.nns 0 with
  | error e => exact ⟨e, rfl⟩
  | ok v =>
    obtain ⟨buf, cnt⟩ := v
    simp only [bind, Except.bind]
    split
    · exact ⟨_, rfl⟩
    · rw [hno]; exact ⟨_, rfl⟩

/-- And when the search has collected its candidates, it writes past the end of the query node: here for every index without trees. -/
theorem C25_long_query_overrun (hc : c.WF) (t : Idx c) (fuel : Nat) (w : World) {query : List c.N.V} (hq : c.L.f < query.length)
    (ht : t.roots = []) (k b : Int) (ctx : Ctx c) : t.getNnsByVector (fuel + 1) w query k b ctx = .error .oob := by
  have hno : Search.queryNode c query = .error .oob := by
    unfold Search.queryNode
    rw [if_neg]
    have h1 := hc.layout.size_eq
    have h2 := hc.layout.sz_pos
    have h3 : (c.L.f + 1) * c.C.sz ≤ query.length * c.C.sz := Nat.mul_le_mul_right _ hq
    rw [Nat.add_mul, Nat.one_mul] at h3
    omega
  unfold Idx.getNnsByVector Search.run
  have hl : ∀ B, Search.loop c (t.mem w) t.nItems query B (fuel + 1) (Search.initQueue c t.roots) ctx.nns 0 = .ok (ctx.nns, 0) := by
    intro B
    rw [ht]
    unfold Search.loop
    split <;> rfl
  dsimp only
  rw [hl]
  simp only [bind, Except.bind]
  rw [if_neg (by omega), hno]

/-- **C25 is false for short queries**: on an index with at most `K` item slots (each tree is one bucket) a query that is too
short is answered as if it were filled up with zeros. -/
theorem C25_short_query (h : Session c numCPU pol adds trees workers s s')
    (hK : slotCount adds ≤ c.L.K)
    (hz : c.C.enc c.N.zero = List.replicate c.C.sz 0) (w : World) {query : List c.N.V} (hq : query.length ≤ c.L.f) (fuel : Nat)
    (k b : Int) (ctx : Ctx c) :
    s'.getNnsByVector fuel w query k b ctx
      = s'.getNnsByVector fuel w (query ++ List.replicate (c.L.f - query.length) c.N.zero) k b ctx := by
  have hroot : ∀ p ∈ Search.initQueue c s'.roots, ∀ a, getNode c.L (s'.mem w) p.2 = .ok a →
      Node.nDesc c.L (s'.mem w).get a ≤ c.L.K := by
    intro p hp a ha
    obtain ⟨ts, S, _, _, _, R⟩ := h.searchable_complete (Or.inl hK) w
    obtain ⟨N0, B, _⟩ := h.built
    obtain ⟨r, hr, rfl⟩ := List.mem_map.1 ((Search.initQueue_perm s'.roots).subset hp)
    rw [← S.roots] at hr
    obtain ⟨t, ht, rfl⟩ := List.mem_map.1 hr
    have e : getNode c.L (s'.mem w) t.root = .ok a := ha
    rw [(S.walk t ht).root] at e
    cases e
    have hR := R t ht
    rw [B.nItems] at hR
    cases t with
    | item i => exact hR.elim
    | hole i => exact hR.elim
    | bucket i l =>
      obtain ⟨_, h2, h3, _⟩ := hR
      show ndAt c.L _ i ≤ _
      omega
    | split i l r => have := hR.2.2.2.1; omega
  unfold Idx.getNnsByVector Search.run
  dsimp only
  rw [Search.loop_leaves (query' := query ++ List.replicate (c.L.f - query.length) c.N.zero) fuel hroot,
    Search.queryNode_pad (k := c.L.f - query.length) hz (by rw [h.wf.layout.size_eq, Nat.add_sub_cancel' hq])]

/-- **C25 as stated is false**: an index with two items of length 2 answers a query of length 1. -/
theorem C25_refuted : ∃ s s', Session (angular32 4 2) 1 .single denseAdds 1 1 s s' ∧ ∀ w,
    ∃ ds o, s'.getNnsByVector 100 w [x32 0x3f800000] 2 (-1) s'.createContext = .ok ([0, 1], ds, o) := by
  obtain ⟨s, s', h, hp⟩ := made_with (c := angular32 4 2) (r := Kiss32.new 0) (adds := denseAdds) (trees := 1)
    (fun s' => decide (s'.roots = [2] ∧
      answerIds (Search.run (angular32 4 2) 100 s'.bmem s'.nItems s'.roots [x32 0x3f800000] 2 (-1) s'.createContext) = some [0, 1]))
    (angular32_wf (Or.inl rfl) (by decide)) (legalAdds_of (by decide +kernel)) (by decide +kernel) (by decide +kernel)
  obtain ⟨h1, h2⟩ := of_decide_eq_true hp
  refine ⟨s, s', h, fun w => ?_⟩
  obtain ⟨N0, B, _⟩ := h.built
  have h0 : 0 < s'.nNodes := by have := B.nNodes; rw [h1] at this; simp at this; omega
  obtain ⟨d1, o1, e1⟩ := answerIds_some h2
  exact ⟨d1, o1, (B.search w h0 _ _ _ _ _).trans e1⟩

/-- The hypotheses of `C25_short_query` hold for the index of `C25_refuted`, those of the others for every index. -/
example : slotCount denseAdds ≤ (angular32 4 2).L.K ∧
    (bvCodec 4).enc ieee32.zero = List.replicate (bvCodec 4).sz 0 ∧
    [x32 0x3f800000].length ≤ (angular32 4 2).L.f ∧ (angular32 4 2).L.f < [x32 0, x32 0, x32 0].length := by decide +kernel

end Annoy
