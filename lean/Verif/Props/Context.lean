import Verif.Props.SearchWitness
/-!
# C22: when is a context made by `CreateContext` large enough?
-/
namespace Annoy

/-- Number of items that hang directly below inner nodes, not in buckets. -/
def Tree.singles : Tree → Nat
  | .item _ => 1
  | .hole _ => 0
  | .bucket _ _ => 0
  | .split _ l r => l.singles + r.singles

/-- What node `i` contributes to `batchMaxNNS` (annoyindex.go:217-229). -/
def nnsWeight (L : Layout) (b : Bytes) (n i : Nat) : Nat :=
  if ndAt L b i = 1 ∧ i < n then 1 else if ndAt L b i ≤ L.K then ndAt L b i else 0

theorem SubTree.items_length {L : Layout} {b : Bytes} {n : Nat} {t : Tree} (h : SubTree L b n t) :
    t.items.length = t.singles + (t.inner.map (nnsWeight L b n)).sum := by
  induction t with
  | item i => simp [Tree.items, Tree.singles, Tree.inner]
  | hole i => exact h.elim
  | bucket i ids =>
    obtain ⟨h1, h2, h3, h4, _⟩ := h
    simp only [Tree.items, Tree.singles, Tree.inner, List.map_cons, List.map_nil, List.sum_cons, List.sum_nil, nnsWeight]
    rw [if_neg (by omega), if_pos (by omega)]
    omega
  | split i l r ihl ihr =>
    obtain ⟨h1, _, _, h4, _, _, _, _, _, hl, hr⟩ := h
    have e : nnsWeight L b n i = 0 := by unfold nnsWeight; rw [if_neg (by omega), if_neg (by omega)]
    simp only [Tree.items, Tree.singles, Tree.inner, List.map_append, List.sum_append, List.length_append, ihl hl, ihr hr,
      List.map_cons, List.map_nil, List.sum_cons, List.sum_nil, e]
    omega

theorem RootTree.items_length {L : Layout} {b : Bytes} {n : Nat} {live : List Nat} (hlive : live.length ≤ n) {t : Tree}
    (h : RootTree L b n live t) :
    t.items.length = t.singles + (t.inner.map (nnsWeight L b n)).sum := by
  cases t with
  | item i => exact h.elim
  | hole i => exact h.elim
  | bucket i ids =>
    obtain ⟨h1, h2, h3, h4, l, h5, rfl⟩ := h
    have := h5.length_eq
    simp only [Tree.items, Tree.singles, Tree.inner, List.map_cons, List.map_nil, List.sum_cons, List.sum_nil, nnsWeight,
      List.length_append, List.length_replicate]
    rw [if_neg (by omega), if_pos (by omega)]
    omega
  | split i l r =>
    obtain ⟨h1, _, _, h4, h5, _, _, h8⟩ := h
    have e : nnsWeight L b n i = 0 := by unfold nnsWeight; rw [if_neg (by omega), if_neg (by omega)]
    rcases h8 with ⟨_, _, _, hl, hr⟩ | ⟨j, _, _, rfl, rfl, _⟩
    · simp only [Tree.items, Tree.singles, Tree.inner, List.map_append, List.sum_append, List.length_append, hl.items_length,
        hr.items_length, List.map_cons, List.map_nil, List.sum_cons, List.sum_nil, e]
      omega
    · simp [Tree.items, Tree.singles, Tree.inner, e]

theorem countNNS_sum {c : Cfg} {s : Idx c} (hs : s.MemOK) {N n : Nat} (hN : N ≤ s.nodesSize) {k : Int}
    (h : Idx.countNNS c s.bmem n N = .ok k) :
    k = (((List.range N).map (nnsWeight c.L s.bmem.get n)).sum : Nat) - 1 := by
  unfold Idx.countNNS at h
  have : (List.range N).mapM (Idx.nnsOf c s.bmem n) = .ok ((List.range N).map (nnsWeight c.L s.bmem.get n)) := by
    apply mapM_ok
    intro i hi
    have hi' := List.mem_range.1 hi
    unfold Idx.nnsOf
    rw [(hs.getNode (i := i) (by omega)).1]
    rfl
  rw [this] at h
  cases h
  rfl

variable {c : Cfg} {numCPU : Nat} {pol : BuildPolicy} {adds : List (Nat × List c.N.V)} {trees workers : Int}
  {s s' : Idx c}

theorem sum_flatMap_weight (f : Nat → Nat) (ts : List Tree) (h : ∀ t ∈ ts, t.items.length = t.singles + (t.inner.map f).sum) :
    (ts.flatMap Tree.items).length = (ts.map Tree.singles).sum + ((ts.flatMap Tree.inner).map f).sum := by
  induction ts with
  | nil => simp
  | cons t ts ih =>
    simp only [List.flatMap_cons, List.length_append, List.map_cons, List.sum_cons, List.map_append, List.sum_append]
    rw [ih fun t ht => h t (by simp [ht]), h t (by simp)]
    omega

/-- Room needed and room made: a context made by `CreateContext` has one place for each item, less one, and one for each
item in a bucket. -/
theorem Session.context_size (h : Session c numCPU pol adds trees workers s s')
    (hk : SplitsKept c numCPU pol (slotCount adds) trees workers) (w : World) :
    ∃ ts, Searchable c (s'.mem w) s'.nItems s'.roots (lastAdded adds) ts ∧
      Tree.sizes ts ≤ 2 * (s'.nNodes - s'.nItems) ∧
      (∀ t ∈ ts, RootTree c.L (s'.mem w).get s'.nItems (addedIds adds) t) ∧
      (addedIds adds ≠ [] → (addedIds adds).length + (ts.flatMap Tree.items).length ≤
        s'.createContext.nns.length + 1 + (ts.map Tree.singles).sum) := by
  obtain ⟨ts, S, _, _, Z, R, I⟩ := h.searchable_inner hk w
  refine ⟨ts, S, Z, R, fun hne => ?_⟩
  have hlt := List.length_pos_of_ne_nil hne
  obtain ⟨N0, B, _⟩ := h.built
  have hc := h.wf
  have hnn := B.n_le_nNodes
  have hN := B.nNodes
  have h0 : 0 < s'.nNodes := by
    have hle : (addedIds adds).length ≤ slotCount adds := liveOf_length_le _ _
    omega
  obtain ⟨hm, hb⟩ := B.mem_eq w h0
  rw [hm, B.nItems] at R
  rw [B.nItems] at I
  have hsum := countNNS_sum B.memOK B.le_size B.nns
  rw [hb] at hsum
  have hlen := sum_flatMap_weight (nnsWeight c.L s'.alloc.block.get (slotCount adds)) ts fun t ht =>
    (R t ht).items_length (liveOf_length_le _ _)
  rw [(I.map _).sum_nat] at hlen
  -- the nodes: items, tree nodes, root copies
  have hsplit : List.range s'.nNodes = List.range (slotCount adds) ++
      (List.range' (slotCount adds) (s'.nNodes - s'.roots.length - slotCount adds) ++
        List.range' N0 s'.roots.length) := by
    have hn := B.n_le
    obtain ⟨d, hd⟩ : ∃ d, N0 = slotCount adds + d := ⟨N0 - slotCount adds, by omega⟩
    rw [List.range_eq_range', List.range_eq_range', show s'.nNodes - s'.roots.length - slotCount adds = d by omega, hd,
      List.range'_append_1]
    have := List.range'_append_1 (s := 0) (m := slotCount adds) (n := d + s'.roots.length)
    rw [Nat.zero_add] at this
    rw [this]
    congr 1
    omega
  have hitems : (addedIds adds).length ≤ ((List.range (slotCount adds)).map (nnsWeight c.L s'.alloc.block.get (slotCount adds))).sum := by
    have : ∀ (f : Nat → Nat) (p : Nat → Bool) (l : List Nat), (∀ i ∈ l, p i = true → f i = 1) →
        (l.filter p).length ≤ (l.map f).sum := by
      intro f p l hl
      induction l with
      | nil => simp
      | cons x l ih =>
        have := ih fun i hi => hl i (by simp [hi])
        have e := hl x (by simp)
        cases hp : p x with
        | true => simp [hp, e hp]; omega
        | false => simp [hp]; omega
    refine this _ _ _ fun i hi hp => ?_
    obtain ⟨v, hv⟩ := Option.isSome_iff_exists.1 hp
    have hnd : ndAt c.L s'.alloc.block.get i = 1 := (B.items i v hv).nDesc
    unfold nnsWeight
    rw [if_pos ⟨hnd, List.mem_range.1 hi⟩]
  rw [hsplit] at hsum
  simp only [List.map_append, List.sum_append] at hsum
  have hctx : s'.createContext.nns.length = if s'.batchMaxNNS < 1 then s'.nNodes * 2 else s'.batchMaxNNS.toNat := by
    simp [Idx.createContext]
  rw [hctx]
  split <;> omega

theorem Session.context_room (h : Session c numCPU pol adds trees workers s s')
    (hk : SplitsKept c numCPU pol (slotCount adds) trees workers) (w : World) :
    ∃ ts, Searchable c (s'.mem w) s'.nItems s'.roots (lastAdded adds) ts ∧
      Tree.sizes ts ≤ 2 * (s'.nNodes - s'.nItems) ∧
      (∀ t ∈ ts, RootTree c.L (s'.mem w).get s'.nItems (addedIds adds) t) ∧
      ((ts.map Tree.singles).sum < (addedIds adds).length →
        (ts.flatMap Tree.items).length ≤ s'.createContext.nns.length) := by
  obtain ⟨ts, S, Z, R, h1⟩ := h.context_size hk w
  refine ⟨ts, S, Z, R, fun hlt => ?_⟩
  have := h1 (by intro e; rw [e] at hlt; simp at hlt)
  omega

/-- **C22, what holds of it**, given that inner nodes survive (`SplitsKept`): a context made by `CreateContext` is large enough
for every query if the items that hang directly below inner nodes, counted in all trees together, are fewer than the items of
the index.  (Missing: the other indexes, where the claim is false, see `C22_refuted`.) -/
theorem C22_context_partial (h : Session c numCPU pol adds trees workers s s')
    (hk : SplitsKept c numCPU pol (slotCount adds) trees workers) (hN : c.N.Lawful) (w : World) :
    ∃ ts : List Tree, ts.map Tree.root = s'.roots ∧
      (∀ t ∈ ts, RootTree c.L (s'.mem w).get s'.nItems (addedIds adds) t) ∧
      ((ts.map Tree.singles).sum < (addedIds adds).length → ∀ (query : List c.N.V), GoodQuery c query → ∀ (k b : Int) (fuel : Nat),
        2 * (s'.nNodes - s'.nItems) < fuel → ∃ x, s'.getNnsByVector fuel w query k b s'.createContext = .ok x) := by
  obtain ⟨ts, S, Z, R, hroom⟩ := h.context_room hk w
  refine ⟨ts, S.roots, R, fun hlt query hq k b fuel hf => ?_⟩
  rcases Search.outcome h.wf hN S hq k b (by omega : Tree.sizes ts < fuel) s'.createContext with h1 | ⟨h1, _⟩
  · exact h1
  · have := hroom hlt
    omega

/-- **C22** for indexes with at most `K` item slots: the context is always large enough. -/
theorem C22_buckets_partial (h : Session c numCPU pol adds trees workers s s') (hK : slotCount adds ≤ c.L.K) (hne : adds ≠ [])
    (hN : c.N.Lawful) (w : World) {query : List c.N.V} (hq : GoodQuery c query) (k b : Int) {fuel : Nat}
    (hf : 2 * (s'.nNodes - s'.nItems) < fuel) : ∃ x, s'.getNnsByVector fuel w query k b s'.createContext = .ok x := by
  obtain ⟨ts, hts, R, hall⟩ := C22_context_partial h (Or.inl hK) hN w
  refine hall ?_ query hq k b fuel hf
  obtain ⟨N0, B, _⟩ := h.built
  have h0 : (ts.map Tree.singles).sum = 0 := by
    apply List.sum_eq_zero
    intro x hx
    obtain ⟨t, ht, rfl⟩ := List.mem_map.1 hx
    have hR := R t ht
    rw [B.nItems] at hR
    cases t with
    | item i => exact hR.elim
    | hole i => exact hR.elim
    | bucket i l => rfl
    | split i l r => have := hR.2.2.2.1; omega
  rw [h0]
  obtain ⟨i, v, hl⟩ : ∃ i v, lastAdded adds i = some v := by
    have := B.top (slotCount_pos hne)
    obtain ⟨v, hv⟩ := Option.isSome_iff_exists.1 this
    exact ⟨_, v, hv⟩
  have : i ∈ addedIds adds := mem_addedIds.2 (by rw [hl]; rfl)
  exact List.length_pos_of_mem this

/-- An index that meets the hypotheses of `C22_buckets_partial`: two items, three trees. -/
example : ∃ s s', Session (alt32 2) 1 .single denseAdds 3 1 s s' ∧ slotCount denseAdds ≤ (alt32 2).L.K ∧
    GoodQuery (alt32 2) query2 := by
  obtain ⟨s, s', h, _⟩ := made_with (c := alt32 2) (r := false) (adds := denseAdds) (trees := 3)
    (fun _ => true) (alt32_wf (by decide)) (legalAdds_of (by decide +kernel)) (by decide +kernel) (by decide +kernel)
  exact ⟨s, s', h, by decide +kernel, rfl, angular_marginOk rfl (by decide)⟩

end Annoy
