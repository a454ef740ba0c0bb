import Verif.Proof.DepthFirst
import Verif.Props.FirstTree
import Verif.Props.History
import Verif.Props.Unchecked
/-!
# What a search costs (C113)

`fuel` of `Search.run` is the number of nodes the loop may take from the queue; with too little of it the run does not end.
-/
namespace Annoy

namespace Search
variable {c : Cfg} {mem : Block} {n : Nat} {roots : List Nat}

/-- A run depends on the number of pops allowed only through what is collected. -/
theorem run_fuel {query : List c.N.V} {k b : Int} {fuel fuel' : Nat} {ctx : Ctx c} {x} {col : List Nat}
    (h : collect mem n query (if b = -1 then k * roots.length else b) fuel (initQueue c roots) [] = .ok col)
    (h' : collect mem n query (if b = -1 then k * roots.length else b) fuel' (initQueue c roots) [] = .ok col)
    (hr : run c fuel mem n roots query k b ctx = .ok x) : run c fuel' mem n roots query k b ctx = .ok x := by
  obtain ⟨col', h1, h2⟩ := collect_of_run hr
  rw [h] at h1
  cases h1
  obtain ⟨l1, -⟩ := (loop_iff fuel (initQueue c roots) ctx.nns _ _).2 ⟨col, h, h2, rfl, rfl⟩
  obtain ⟨l2, -⟩ := (loop_iff fuel' (initQueue c roots) ctx.nns _ _).2 ⟨col, h', h2, rfl, rfl⟩
  unfold run at hr ⊢
  dsimp only at hr ⊢
  rw [l1] at hr
  rw [l2]
  exact hr

end Search

/-! ### the trees of an index -/

theorem SubTree.descends {L : Layout} {b : Bytes} {n : Nat} {t : Tree} (h : SubTree L b n t) : t.Descends ∧ t.Full := by
  induction t with
  | item i => exact ⟨trivial, by simp [Tree.Full, Tree.own, Tree.items]⟩
  | hole i => exact h.elim
  | bucket i ids =>
    refine ⟨trivial, ?_⟩
    have h2 : 2 ≤ ids.length := h.2.1
    simp only [Tree.Full, Tree.own, Tree.items, ne_eq]
    rintro rfl
    simp at h2
  | split i l r ihl ihr =>
    obtain ⟨-, h1, h2, -, -, -, -, -, -, h3, h4⟩ := h
    exact ⟨⟨h1, h2, (ihl h3).1, (ihr h4).1⟩, (ihl h3).2, (ihr h4).2⟩

theorem RootTree.descends {L : Layout} {b : Bytes} {n : Nat} {live : List Nat} {t : Tree} (h : RootTree L b n live t) : t.Descends := by
  cases t with
  | item i => exact h.elim
  | hole i => exact h.elim
  | bucket i ids => trivial
  | split i l r =>
    obtain ⟨-, h1, h2, -, -, -, -, ⟨-, -, -, h3, h4⟩ | ⟨j, -, -, rfl, rfl, -⟩⟩ := h
    · exact ⟨h1, h2, h3.descends.1, h4.descends.1⟩
    · exact ⟨h1, h2, trivial, trivial⟩

theorem RootTree.full {L : Layout} {b : Bytes} {n : Nat} {live : List Nat} {t : Tree} (h : RootTree L b n live t)
    (h2 : 2 ≤ live.length) : t.Full := by
  cases t with
  | item i => exact h.elim
  | hole i => exact h.elim
  | bucket i ids =>
    obtain ⟨-, -, -, -, l, hp, rfl⟩ := h
    have := hp.length_eq
    simp only [Tree.Full, Tree.own, Tree.items, ne_eq, List.append_eq_nil_iff, not_and]
    rintro rfl
    simp at this
    omega
  | split i l r =>
    obtain ⟨-, -, -, -, -, -, -, ⟨-, -, -, h3, h4⟩ | ⟨j, rfl, -⟩⟩ := h
    · exact ⟨h3.descends.2, h4.descends.2⟩
    · simp at h2

/-- The memory determines the depth of a tree. -/
theorem Holds.depth_unique {L : Layout} {sz : Nat} (hL : L.Ok sz) {b : Bytes} {n : Nat} {t t' : Tree} (h : Holds L b n t)
    (h' : Holds L b n t') (hr : t.root = t'.root) : t.depth = t'.depth := by
  have hK := hL.K_ge
  have leaf : ∀ {t : Tree}, Holds L b n t → (∃ i l r, t = .split i l r) ∨ (t.depth = 0 ∧ ndAt L b t.root ≤ L.K) := by
    intro t h
    cases t with
    | split i l r => exact Or.inl ⟨i, l, r, rfl⟩
    | item i => exact Or.inr ⟨rfl, by have := h.2; simp only [Tree.root]; omega⟩
    | hole i => exact Or.inr ⟨rfl, by have : ndAt L b i = 0 := h; simp only [Tree.root]; omega⟩
    | bucket i ids => exact Or.inr ⟨rfl, h.2.1⟩
  induction t generalizing t' with
  | split i l r ihl ihr =>
    rcases leaf h' with ⟨j, l', r', rfl⟩ | ⟨h1, h2⟩
    · obtain rfl : i = j := hr
      obtain ⟨-, a1, a2, a3, a4⟩ := h
      obtain ⟨-, b1, b2, b3, b4⟩ := h'
      simp only [Tree.depth]
      rw [ihl a3 b3 (a1.symm.trans b1), ihr a4 b4 (a2.symm.trans b2)]
    · rw [← hr] at h2
      exact absurd h.1 (Nat.not_lt.2 h2)
  | item i =>
    rcases leaf h with ⟨_, _, _, h⟩ | ⟨h1, h2⟩
    · cases h
    · rcases leaf h' with ⟨j, l', r', rfl⟩ | ⟨h3, -⟩
      · rw [hr] at h2; exact absurd h'.1 (Nat.not_lt.2 h2)
      · rw [h1, h3]
  | hole i =>
    rcases leaf h with ⟨_, _, _, h⟩ | ⟨h1, h2⟩
    · cases h
    · rcases leaf h' with ⟨j, l', r', rfl⟩ | ⟨h3, -⟩
      · rw [hr] at h2; exact absurd h'.1 (Nat.not_lt.2 h2)
      · rw [h1, h3]
  | bucket i ids =>
    rcases leaf h with ⟨_, _, _, h⟩ | ⟨h1, h2⟩
    · cases h
    · rcases leaf h' with ⟨j, l', r', rfl⟩ | ⟨h3, -⟩
      · rw [hr] at h2; exact absurd h'.1 (Nat.not_lt.2 h2)
      · rw [h1, h3]

/-- Below every node of a tree there is no more depth than below its root. -/
theorem Holds.below {L : Layout} {b : Bytes} {n : Nat} {t : Tree} (h : Holds L b n t) {y : Nat} (hy : y ∈ t.inner) :
    ∃ u, Holds L b n u ∧ u.root = y ∧ u.depth ≤ t.depth := by
  induction t with
  | item i => simp [Tree.inner] at hy
  | hole i => simp [Tree.inner] at hy
  | bucket i ids =>
    simp only [Tree.inner, List.mem_singleton] at hy
    exact ⟨_, h, hy.symm, le_refl _⟩
  | split i l r ihl ihr =>
    simp only [Tree.inner, List.mem_append, List.mem_singleton] at hy
    rcases hy with (hy | hy) | rfl
    · obtain ⟨u, u1, u2, u3⟩ := ihl h.2.2.2.1 hy
      exact ⟨u, u1, u2, by simp only [Tree.depth]; omega⟩
    · obtain ⟨u, u1, u2, u3⟩ := ihr h.2.2.2.2 hy
      exact ⟨u, u1, u2, by simp only [Tree.depth]; omega⟩
    · exact ⟨_, h, rfl, le_refl _⟩

namespace Session
variable {c : Cfg} {numCPU : Nat} {pol : BuildPolicy} {adds : List (Nat × List c.N.V)} {trees workers : Int} {s s' : Idx c}

/-- **C106** for loaded indexes: the trees of an index loaded from the file of a built one are no deeper. -/
theorem C106_depth_loaded (h : Session c numCPU pol adds trees workers s s')
    (hs : SplitsKept c numCPU pol (slotCount adds) trees workers) (hS : Shrinks c) (hn : 2 ≤ slotCount adds) (hroots : s'.roots ≠ [])
    (hk : c.L.CountKept (slotCount adds)) {w : World} {path : String} (hf : FileOf s' w path) {bk : Backend} {u t : Idx c}
    (hl : u.load bk w path = .ok (.nil, t)) {v : Tree} (hv : Holds c.L (t.mem w).get t.nItems v) (hvr : v.root ∈ t.roots) :
    v.depth ≤ 77 * Nat.clog 2 (slotCount adds) := by
  obtain ⟨t', h2, N0, B, hN, R⟩ := h.reload hn hroots hk hf bk u
  rw [hl] at h2
  cases h2
  by_cases hK : slotCount adds ≤ c.L.K
  · -- a root with so few items below is a bucket
    cases v with
    | split i l r =>
      exfalso
      have h1 : c.L.K < ndAt c.L (t.mem w).get i := hv.1
      obtain ⟨j, j1, j2, -, j4, j5⟩ := R.roots_or
      rw [R.mem] at h1
      have : ndAt c.L s'.alloc.data i = slotCount adds := by
        have hi : i ∈ t.roots := hvr
        rcases j5 with j5 | ⟨j5, -⟩ <;> rw [j5, List.mem_reverse, List.mem_range'_1] at hi
        · exact j4 i (by omega) (by omega)
        · exact j4 i (by omega) (by omega)
      have h1' : c.L.K < ndAt c.L s'.alloc.data i := h1
      omega
    | _ => exact Nat.zero_le _
  · have hd : c.L.Deep N0 := by
      rcases hs with hs | hs
      · omega
      · exact hs.mono hN
    obtain ⟨ts, h1, h2, h3⟩ := B.sided (Or.inl hd)
    obtain ⟨⟨us, hus, hu⟩, -⟩ := h.C106_depth hs hS
    rw [B.nItems] at hu
    have hv' : Holds c.L s'.alloc.data (slotCount adds) v := by
      rw [R.mem, R.nItems] at hv
      exact hv
    have hdep : ∀ x ∈ ts, x.depth ≤ 77 * Nat.clog 2 (slotCount adds) := by
      intro x hx
      have : x.root ∈ s'.roots := by rw [← h1]; exact List.mem_map_of_mem hx
      rw [← hus] at this
      obtain ⟨y, hy, e⟩ := List.mem_map.1 this
      rw [← Holds.depth_unique h.wf.layout (hu y hy).1.holds (h2 x hx).1.holds e]
      exact (hu y hy).2
    have hlt : slotCount adds ≤ v.root ∧ v.root < s'.nNodes := by
      obtain ⟨j, j1, j2, -, -, j5⟩ := R.roots_or
      rcases j5 with j5 | ⟨j5, -⟩ <;> rw [j5, List.mem_reverse, List.mem_range'_1] at hvr <;> omega
    by_cases hx : v.root < N0
    · have : v.root ∈ ts.flatMap Tree.inner := h3.symm.subset (by rw [List.mem_range'_1]; have := B.n_le; omega)
      obtain ⟨x, x1, x2⟩ := List.mem_flatMap.1 this
      obtain ⟨y, y1, y2, y3⟩ := (h2 x x1).1.holds.below x2
      rw [Holds.depth_unique h.wf.layout hv' y1 y2.symm]
      exact y3.trans (hdep x x1)
    · have hNn := B.nNodes
      obtain ⟨k, hkk⟩ : ∃ k, v.root = N0 + k := ⟨v.root - N0, by omega⟩
      have hkr : k < s'.roots.length := by omega
      have hsame := B.copy_same hk hd (by omega) hkr
      have hm : s'.roots[k] ∈ ts.map Tree.root := by rw [h1]; exact List.getElem_mem hkr
      obtain ⟨x, x1, x2⟩ := List.mem_map.1 hm
      have hxr := (h2 x x1).1
      have hchild : ∀ e, e < 2 → childAt c.L s'.alloc.data (N0 + k) e = childAt c.L s'.alloc.data (s'.roots[k]) e := by
        intro e he
        have h3 := h.wf.layout.three_le
        unfold childAt Node.child
        refine readLE_congr fun j hj => ?_
        have := hsame (c.L.szIX + e * c.L.szIX + j) (by
          have : e * c.L.szIX ≤ 1 * c.L.szIX := Nat.mul_le_mul_right _ (by omega)
          omega)
        rw [← Nat.add_assoc, ← Nat.add_assoc, ← Nat.add_assoc, ← Nat.add_assoc] at this
        exact this
      cases v with
      | split i l r =>
        cases x with
        | item i => exact hxr.elim
        | hole i => exact hxr.elim
        | bucket i ids => exact absurd hxr.2.1 hK
        | split j l' r' =>
          have ex := hxr.holds
          obtain ⟨-, a1, a2, a3, a4⟩ := hv'
          obtain ⟨-, b1, b2, b3, b4⟩ := ex
          have hi : i = N0 + k := hkk
          have hj : j = s'.roots[k] := x2
          rw [hi, hchild 0 (by omega), ← hj, b1] at a1
          rw [hi, hchild 1 (by omega), ← hj, b2] at a2
          have hle := hdep _ x1
          simp only [Tree.depth] at hle ⊢
          rw [Holds.depth_unique h.wf.layout a3 b3 a1.symm, Holds.depth_unique h.wf.layout a4 b4 a2.symm]
          exact hle
      | _ => exact Nat.zero_le _

end Session

namespace Session
variable {c : Cfg} {numCPU : Nat} {pol : BuildPolicy} {adds : List (Nat × List c.N.V)} {trees workers : Int} {s s' : Idx c}

/-- A search of trees with at least two items each, of depth at most `D`, takes at most `2 * budget + D` nodes from the queue. -/
theorem _root_.Annoy.Search.cost (hc : c.WF) (hk : c.N.KeyLaws) (hM : MinKeys c) {mem : Block} {n : Nat} {roots : List Nat}
    {m : Nat → Option (List c.N.V)} {ts : List Tree} (S : Searchable c mem n roots m ts) {live : List Nat}
    (hroot : ∀ t ∈ ts, RootTree c.L mem.get n live t) (h2 : 2 ≤ live.length) {D : Nat} (hD : ∀ t ∈ ts, t.depth ≤ D)
    {query : List c.N.V} (hq : GoodQuery c query) (ho : ∀ t ∈ ts, ∀ i ∈ t.splitNodes, c.N.Ordinary (marginOf c mem query i))
    {k b : Int} {fuel : Nat} {ctx : Ctx c} {x} (hr : Search.run c fuel mem n roots query k b ctx = .ok x) :
    Search.run c (2 * (if b = -1 then k * roots.length else b).toNat + D + 1) mem n roots query k b ctx = .ok x := by
  obtain ⟨vs, G, r1, -, r3, r4⟩ := Search.collect_walk_visits hc hk hM S (x := marginOf c mem query)
    (fun t _ => marginsAt_marginOf hq.margin t) ho (budget := if b = -1 then k * roots.length else b)
  have hv := r3.visits_of_budget hk (D := D) (by
      intro e he
      obtain ⟨t, ht, rfl⟩ := List.mem_map.1 he
      exact ⟨hk.inf_ordinary, ho t ht⟩) (by
      intro e he
      obtain ⟨t, ht, rfl⟩ := List.mem_map.1 he
      exact (hroot t ht).descends) (by
      intro e he
      obtain ⟨t, ht, rfl⟩ := List.mem_map.1 he
      exact ⟨(hroot t ht).full h2, hD t ht⟩) r4
  obtain ⟨col, c1, -⟩ := Search.collect_of_run hr
  have e := Search.collect_det c1 (r1 _ (Nat.lt_succ_self _))
  rw [e] at c1
  exact Search.run_fuel c1 (r1 _ (by omega)) hr

theorem _root_.Annoy.OrdinaryMargins.at {w : World} {s : Idx c} {query : List c.N.V} (hord : OrdinaryMargins s w query) (hq : GoodQuery c query)
    {m : Nat → Option (List c.N.V)} {ts : List Tree} (S : Searchable c (s.mem w) s.nItems s.roots m ts) :
    ∀ t ∈ ts, ∀ i ∈ t.splitNodes, c.N.Ordinary (marginOf c (s.mem w) query i) := by
  intro t ht i hi
  obtain ⟨y, hy⟩ := hq.margin (s.mem w).get (i * c.L.nodeSize)
  unfold marginOf
  rw [hy]
  exact hord t (by rw [← S.roots]; exact List.mem_map_of_mem ht) (S.walk t ht).holds i hi y hy

/-- **C113**, given that inner nodes survive being written and that no margin is NaN: a search with budget `b` takes at most
`2 b + 77 log2 n` nodes from its queue, `n` the number of slots - with so many pops allowed it gives its answer. -/
theorem C113_cost (h : Session c numCPU pol adds trees workers s s') (hs : SplitsKept c numCPU pol (slotCount adds) trees workers)
    (hS : Shrinks c) (hk : c.N.KeyLaws) (hM : MinKeys c) (h2 : 2 ≤ (addedIds adds).length) (w : World) {query : List c.N.V}
    (hq : GoodQuery c query) (hord : OrdinaryMargins s' w query) {k b : Int} {fuel : Nat} {ctx : Ctx c} {x}
    (hr : s'.getNnsByVector fuel w query k b ctx = .ok x) :
    s'.getNnsByVector (2 * (if b = -1 then k * s'.roots.length else b).toNat + 77 * Nat.clog 2 (slotCount adds) + 1) w query k b ctx =
      .ok x := by
  obtain ⟨ts, S, -, -, -, hroot, -⟩ := h.searchable_inner hs w
  obtain ⟨⟨us, hus, hu⟩, -⟩ := h.C106_depth hs hS
  refine Search.cost h.wf hk hM S hroot h2 ?_ hq (hord.at hq S) hr
  intro t ht
  have hm : t.root ∈ s'.roots := by rw [← S.roots]; exact List.mem_map_of_mem ht
  rw [← hus] at hm
  obtain ⟨v, hv, e⟩ := List.mem_map.1 hm
  obtain ⟨N0, B, _⟩ := h.built
  have h0 : 0 < s'.nNodes := by
    have h1 : 0 < s'.roots.length := by rw [← hus, List.length_map]; exact List.length_pos_of_mem hv
    have := B.nNodes
    omega
  have hb := (B.mem_eq w h0).1
  have hh : Holds c.L s'.alloc.data s'.nItems t := by
    have := (S.walk t ht).holds
    rw [hb] at this
    exact this
  rw [← Holds.depth_unique h.wf.layout (hu v hv).1.holds hh e]
  exact (hu v hv).2

/-- **C113** for loaded indexes. -/
theorem C113_cost_loaded (h : Session c numCPU pol adds trees workers s s') (hs : SplitsKept c numCPU pol (slotCount adds) trees workers)
    (hS : Shrinks c) (hn : 2 ≤ slotCount adds) (hroots : s'.roots ≠ []) (hck : c.L.CountKept (slotCount adds))
    (hcp : c.L.CopiesKept (slotCount adds)) (hk : c.N.KeyLaws) (hM : MinKeys c) (h2 : 2 ≤ (addedIds adds).length)
    {w : World} {path : String} (hf : FileOf s' w path) {bk : Backend} {u t : Idx c} (hl : u.load bk w path = .ok (.nil, t))
    {query : List c.N.V} (hq : GoodQuery c query) (hord : OrdinaryMargins t w query) {k b : Int} {fuel : Nat} {ctx : Ctx c} {x}
    (hr : t.getNnsByVector fuel w query k b ctx = .ok x) :
    t.getNnsByVector (2 * (if b = -1 then k * t.roots.length else b).toNat + 77 * Nat.clog 2 (slotCount adds) + 1) w query k b ctx =
      .ok x := by
  obtain ⟨h1, e, ts, S, C, U, Z⟩ := h.reload_complete hn hroots hck hs hcp hf hl
  have hni : t.nItems = slotCount adds := by
    obtain ⟨t', h2, N0, B, hN, R⟩ := h.reload hn hroots hck hf bk u
    rw [hl] at h2
    cases h2
    exact R.nItems
  exact Search.cost h.wf hk hM S (by rw [hni]; exact Z) h2
    (fun v hv => h.C106_depth_loaded hs hS hn hroots hck hf hl (S.walk v hv).holds (by rw [← S.roots]; exact List.mem_map_of_mem hv))
    hq (hord.at hq S) hr

end Session

theorem FiniteBelow.ordinary {c : Cfg} (hk : c.N.KeyLaws) {s : Idx c} {w : World} {query : List c.N.V} (h : FiniteBelow s w query) :
    OrdinaryMargins s w query :=
  fun t ht hh i hi y hy => (hk.lt_ordinary _ _ (h t ht hh i hi y hy).1).1

/-! ### how many results -/

namespace Search
variable {c : Cfg} {mem : Block} {n : Nat}

theorem loop_count (hK : 1 ≤ c.L.K) {query : List c.N.V} {budget : Int} : ∀ (fuel : Nat) {q : List (c.N.V × Nat)} {buf buf' : List Nat}
    {cnt cnt' : Nat}, loop c mem n query budget fuel q buf cnt = .ok (buf', cnt') → cnt' = cnt ∨ (cnt' : Int) < budget + c.L.K := by
  intro fuel
  induction fuel with
  | zero => intro q buf buf' cnt cnt' h; cases h
  | succ fuel ih =>
    intro q buf buf' cnt cnt' h
    unfold loop at h
    by_cases hb : (cnt : Int) < budget
    · rw [if_pos hb] at h
      split at h
      · cases h; exact Or.inl rfl
      · next d i q' hp =>
        simp only [bind, Except.bind] at h
        split at h
        · cases h
        · next a ha =>
          split at h
          · split at h
            · rcases ih h with h1 | h1
              · right; omega
              · exact Or.inr h1
            · cases h
          · split at h
            · next hnd =>
              split at h
              · rcases ih h with h1 | h1
                · right; omega
                · exact Or.inr h1
              · cases h
            · split at h
              · cases h
              · exact ih h
    · rw [if_neg hb] at h
      cases h
      exact Or.inl rfl

/-- **C113**, results: whatever the memory, the roots, the query and the context, a search with budget `b > 0` returns fewer than
`b + K` results (`K` the number of entries of a bucket), and never more than `numReturn`; with a budget of 0 or less it returns none. -/
theorem C113_results (hc : c.WF) {roots : List Nat} {query : List c.N.V} {k b : Int} {fuel : Nat} {ctx ctx' : Ctx c} {ids : List Nat}
    {ds : List c.N.V} (hr : run c fuel mem n roots query k b ctx = .ok (ids, ds, ctx')) :
    ids.length = ds.length ∧ (ids = [] ∨ (ids.length : Int) ≤ k ∧ 0 < (if b = -1 then k * roots.length else b) ∧
      (ids.length : Int) < (if b = -1 then k * roots.length else b) + c.L.K) := by
  have hK := hc.layout.K_ge
  unfold run at hr
  simp only [bind, Except.bind] at hr
  split at hr
  · cases hr
  · next v hv =>
    obtain ⟨buf, cnt⟩ := v
    dsimp only at hr
    split at hr
    · cases hr
    · next hcnt =>
      split at hr
      · cases hr
      · next vn hvn =>
        split at hr
        · cases hr
        · next d hd =>
          have hlen := distances_length _ hd
          rw [(hc.sortIds_perm _).length_eq, List.length_take] at hlen
          simp only [Except.ok.injEq, Prod.mk.injEq] at hr
          obtain ⟨rfl, rfl, -⟩ := hr
          refine ⟨by simp, ?_⟩
          have hp := (hc.partialSort_perm d (if k < (d.length : Int) then k else (d.length : Int))).length_eq
          rw [← List.length_eq_zero_iff]
          simp only [List.length_map, List.length_take, hp]
          by_cases h0 : cnt = 0
          · left; omega
          · have hb : 0 < (if b = -1 then k * roots.length else b) := by
              by_contra hb
              cases fuel with
              | zero => cases hv
              | succ fuel =>
                unfold loop at hv
                rw [if_neg (by push_cast; omega)] at hv
                cases hv
                exact h0 rfl
            rcases loop_count (by omega) _ hv with h1 | h1
            · exact absurd h1 h0
            · by_cases hk : k < 0
              · left
                split <;> omega
              · right
                refine ⟨?_, hb, ?_⟩
                · split <;> omega
                · omega

end Search

/-! ### ordinary data -/

section
variable {R : Rng} {sI : List Nat → List Nat} {sP : List (ieee32.V × Nat) → List (ieee32.V × Nat)} {ix n numCPU : Nat}
  {pol : BuildPolicy} {adds : List (Nat × List ieee32.V)} {trees workers : Int} {s s' : Idx (angularCfg ieee32 (bvCodec 4) R sI sP ix n)}

/-- **C113 for `float32`**: at least `3 * sizeof(TIX)` and at most `2^17` components, at least two items, items and query with norms from
`2^-31` to `2^31`: a search with budget `b` takes at most `2 b + 77 log2 n` nodes from the queue. -/
theorem C113_float32 (h : Session (angularCfg ieee32 (bvCodec 4) R sI sP ix n) numCPU pol adds trees workers s s') (hix8 : ix ≤ 8)
    (hix : 3 * ix ≤ n) (hn : n ≤ 2 ^ 17) (hv : ∀ i v, lastAdded adds i = some v → Moderate32 n v) {q : List ieee32.V} (hq : Moderate32 n q)
    (h2 : 2 ≤ (addedIds adds).length) (w : World) {k b : Int} {fuel : Nat} {ctx : Ctx (angularCfg ieee32 (bvCodec 4) R sI sP ix n)} {x}
    (hr : s'.getNnsByVector fuel w q k b ctx = .ok x) :
    s'.getNnsByVector (2 * (if b = -1 then k * s'.roots.length else b).toNat + 77 * Nat.clog 2 (slotCount adds) + 1) w q k b ctx =
      .ok x := by
  have hpos : 0 < ix := h.wf.layout.szIX_pos
  have hs := splitsKept_of_length h.wf hix h.fits
  exact h.C113_cost hs (angular_shrinks h.wf hix8) ieee32_keyLaws angular_minKeys h2 w ⟨hq.length, angular_marginOk hq.length (by omega)⟩
    (h.ordinaryMargins hs ieee32_keyLaws (margins32 h hix hn hv hq w)) hr

/-- **C113 for `float32`**, loaded indexes. -/
theorem C113_loaded_float32 (h : Session (angularCfg ieee32 (bvCodec 4) R sI sP ix n) numCPU pol adds trees workers s s') (hix8 : ix ≤ 8)
    (hix : 3 * ix ≤ n) (hn : n ≤ 2 ^ 17) (hv : ∀ i v, lastAdded adds i = some v → Moderate32 n v) {q : List ieee32.V} (hq : Moderate32 n q)
    (hroots : s'.roots ≠ []) (h2 : 2 ≤ (addedIds adds).length)
    (hcp : (angularCfg ieee32 (bvCodec 4) R sI sP ix n).L.CopiesKept (slotCount adds)) {w : World} {path : String} (hf : FileOf s' w path)
    {bk : Backend} {u t : Idx (angularCfg ieee32 (bvCodec 4) R sI sP ix n)} (hl : u.load bk w path = .ok (.nil, t))
    {k b : Int} {fuel : Nat} {ctx : Ctx (angularCfg ieee32 (bvCodec 4) R sI sP ix n)} {x} (hr : t.getNnsByVector fuel w q k b ctx = .ok x) :
    t.getNnsByVector (2 * (if b = -1 then k * t.roots.length else b).toNat + 77 * Nat.clog 2 (slotCount adds) + 1) w q k b ctx =
      .ok x := by
  have hpos : 0 < ix := h.wf.layout.szIX_pos
  have hs := splitsKept_of_length h.wf hix h.fits
  have hck := h.countKept (show ix ≤ n by omega)
  have hsl : 2 ≤ slotCount adds := h2.trans (liveOf_length_le _ _)
  exact h.C113_cost_loaded hs (angular_shrinks h.wf hix8) hsl hroots hck hcp ieee32_keyLaws angular_minKeys h2 hf hl
    ⟨hq.length, angular_marginOk hq.length (by omega)⟩
    ((h.finiteBelow_loaded hsl hroots hck hs hcp hf hl (margins32 h hix hn hv hq w)).ordinary ieee32_keyLaws) hr
end

section
variable {R : Rng} {sI : List Nat → List Nat} {sP : List (ieee64.V × Nat) → List (ieee64.V × Nat)} {ix n numCPU : Nat}
  {pol : BuildPolicy} {adds : List (Nat × List ieee64.V)} {trees workers : Int} {s s' : Idx (angularCfg ieee64 (bvCodec 8) R sI sP ix n)}

/-- **C113 for `float64`**: at least `3 * sizeof(TIX)` and at most `2^46` components, at least two items, items and query with norms from
`2^-249` to `2^249`: a search with budget `b` takes at most `2 b + 77 log2 n` nodes from the queue. -/
theorem C113_float64 (h : Session (angularCfg ieee64 (bvCodec 8) R sI sP ix n) numCPU pol adds trees workers s s') (hix8 : ix ≤ 8)
    (hix : 3 * ix ≤ n) (hn : n ≤ 2 ^ 46) (hv : ∀ i v, lastAdded adds i = some v → Moderate64 n v) {q : List ieee64.V} (hq : Moderate64 n q)
    (h2 : 2 ≤ (addedIds adds).length) (w : World) {k b : Int} {fuel : Nat} {ctx : Ctx (angularCfg ieee64 (bvCodec 8) R sI sP ix n)} {x}
    (hr : s'.getNnsByVector fuel w q k b ctx = .ok x) :
    s'.getNnsByVector (2 * (if b = -1 then k * s'.roots.length else b).toNat + 77 * Nat.clog 2 (slotCount adds) + 1) w q k b ctx =
      .ok x := by
  have hpos : 0 < ix := h.wf.layout.szIX_pos
  have hs := splitsKept_of_length h.wf hix h.fits
  exact h.C113_cost hs (angular_shrinks h.wf hix8) ieee64_keyLaws angular_minKeys h2 w ⟨hq.length, angular_marginOk hq.length (by omega)⟩
    (h.ordinaryMargins hs ieee64_keyLaws (margins64 h hix hn hv hq w)) hr

/-- **C113 for `float64`**, loaded indexes. -/
theorem C113_loaded_float64 (h : Session (angularCfg ieee64 (bvCodec 8) R sI sP ix n) numCPU pol adds trees workers s s') (hix8 : ix ≤ 8)
    (hix : 3 * ix ≤ n) (hn : n ≤ 2 ^ 46) (hv : ∀ i v, lastAdded adds i = some v → Moderate64 n v) {q : List ieee64.V} (hq : Moderate64 n q)
    (hroots : s'.roots ≠ []) (h2 : 2 ≤ (addedIds adds).length)
    (hcp : (angularCfg ieee64 (bvCodec 8) R sI sP ix n).L.CopiesKept (slotCount adds)) {w : World} {path : String} (hf : FileOf s' w path)
    {bk : Backend} {u t : Idx (angularCfg ieee64 (bvCodec 8) R sI sP ix n)} (hl : u.load bk w path = .ok (.nil, t))
    {k b : Int} {fuel : Nat} {ctx : Ctx (angularCfg ieee64 (bvCodec 8) R sI sP ix n)} {x} (hr : t.getNnsByVector fuel w q k b ctx = .ok x) :
    t.getNnsByVector (2 * (if b = -1 then k * t.roots.length else b).toNat + 77 * Nat.clog 2 (slotCount adds) + 1) w q k b ctx =
      .ok x := by
  have hpos : 0 < ix := h.wf.layout.szIX_pos
  have hs := splitsKept_of_length h.wf hix h.fits
  have hck := h.countKept (show ix ≤ n by omega)
  have hsl : 2 ≤ slotCount adds := h2.trans (liveOf_length_le _ _)
  exact h.C113_cost_loaded hs (angular_shrinks h.wf hix8) hsl hroots hck hcp ieee64_keyLaws angular_minKeys h2 hf hl
    ⟨hq.length, angular_marginOk hq.length (by omega)⟩
    ((h.finiteBelow_loaded hsl hroots hck hs hcp hf hl (margins64 h hix hn hv hq w)).ordinary ieee64_keyLaws) hr
end

section
variable {R : Rng} {sI : List Nat → List Nat} {sP : List (ieee32.V × Nat) → List (ieee32.V × Nat)} {ix n numCPU : Nat}
  {pol : BuildPolicy} {adds : List (Nat × List ieee32.V)} {trees workers : Int} {s s' : Idx (dotCfg ieee32 (bvCodec 4) R sI sP ix n)}

/-- **C113 for `float32`**, dot product: at least `3 * sizeof(TIX)` and at most `2^17` components, at least two items, items and query with norms from
`2^-31` to `2^31`: a search with budget `b` takes at most `2 b + 77 log2 n` nodes from the queue. -/
theorem C113_dot_float32 (h : Session (dotCfg ieee32 (bvCodec 4) R sI sP ix n) numCPU pol adds trees workers s s') (hix8 : ix ≤ 8)
    (hix : 3 * ix ≤ n) (hn : n ≤ 2 ^ 17) (hv : ∀ i v, lastAdded adds i = some v → Moderate32 n v) {q : List ieee32.V} (hq : Moderate32 n q)
    (h2 : 2 ≤ (addedIds adds).length) (w : World) {k b : Int} {fuel : Nat} {ctx : Ctx (dotCfg ieee32 (bvCodec 4) R sI sP ix n)} {x}
    (hr : s'.getNnsByVector fuel w q k b ctx = .ok x) :
    s'.getNnsByVector (2 * (if b = -1 then k * s'.roots.length else b).toNat + 77 * Nat.clog 2 (slotCount adds) + 1) w q k b ctx =
      .ok x := by
  have hpos : 0 < ix := h.wf.layout.szIX_pos
  have hs := splitsKept_of_length h.wf hix h.fits
  exact h.C113_cost hs (dot_shrinks h.wf hix8) ieee32_keyLaws dot_minKeys h2 w ⟨hq.length, dot_marginOk hq.length (by omega)⟩
    (h.ordinaryMargins hs ieee32_keyLaws (dotMargins32 h hix hn hv hq w)) hr

/-- **C113 for `float32`**, dot product, loaded indexes. -/
theorem C113_loaded_dot_float32 (h : Session (dotCfg ieee32 (bvCodec 4) R sI sP ix n) numCPU pol adds trees workers s s') (hix8 : ix ≤ 8)
    (hix : 3 * ix ≤ n) (hn : n ≤ 2 ^ 17) (hv : ∀ i v, lastAdded adds i = some v → Moderate32 n v) {q : List ieee32.V} (hq : Moderate32 n q)
    (hroots : s'.roots ≠ []) (h2 : 2 ≤ (addedIds adds).length)
    (hcp : (dotCfg ieee32 (bvCodec 4) R sI sP ix n).L.CopiesKept (slotCount adds)) {w : World} {path : String} (hf : FileOf s' w path)
    {bk : Backend} {u t : Idx (dotCfg ieee32 (bvCodec 4) R sI sP ix n)} (hl : u.load bk w path = .ok (.nil, t))
    {k b : Int} {fuel : Nat} {ctx : Ctx (dotCfg ieee32 (bvCodec 4) R sI sP ix n)} {x} (hr : t.getNnsByVector fuel w q k b ctx = .ok x) :
    t.getNnsByVector (2 * (if b = -1 then k * t.roots.length else b).toNat + 77 * Nat.clog 2 (slotCount adds) + 1) w q k b ctx =
      .ok x := by
  have hpos : 0 < ix := h.wf.layout.szIX_pos
  have hs := splitsKept_of_length h.wf hix h.fits
  have hck := h.countKept (show ix ≤ n by omega)
  have hsl : 2 ≤ slotCount adds := h2.trans (liveOf_length_le _ _)
  exact h.C113_cost_loaded hs (dot_shrinks h.wf hix8) hsl hroots hck hcp ieee32_keyLaws dot_minKeys h2 hf hl
    ⟨hq.length, dot_marginOk hq.length (by omega)⟩
    ((h.finiteBelow_loaded hsl hroots hck hs hcp hf hl (dotMargins32 h hix hn hv hq w)).ordinary ieee32_keyLaws) hr
end

section
variable {R : Rng} {sI : List Nat → List Nat} {sP : List (ieee64.V × Nat) → List (ieee64.V × Nat)} {ix n numCPU : Nat}
  {pol : BuildPolicy} {adds : List (Nat × List ieee64.V)} {trees workers : Int} {s s' : Idx (dotCfg ieee64 (bvCodec 8) R sI sP ix n)}

/-- **C113 for `float64`**, dot product: at least `3 * sizeof(TIX)` and at most `2^46` components, at least two items, items and query with norms from
`2^-249` to `2^249`: a search with budget `b` takes at most `2 b + 77 log2 n` nodes from the queue. -/
theorem C113_dot_float64 (h : Session (dotCfg ieee64 (bvCodec 8) R sI sP ix n) numCPU pol adds trees workers s s') (hix8 : ix ≤ 8)
    (hix : 3 * ix ≤ n) (hn : n ≤ 2 ^ 46) (hv : ∀ i v, lastAdded adds i = some v → Moderate64 n v) {q : List ieee64.V} (hq : Moderate64 n q)
    (h2 : 2 ≤ (addedIds adds).length) (w : World) {k b : Int} {fuel : Nat} {ctx : Ctx (dotCfg ieee64 (bvCodec 8) R sI sP ix n)} {x}
    (hr : s'.getNnsByVector fuel w q k b ctx = .ok x) :
    s'.getNnsByVector (2 * (if b = -1 then k * s'.roots.length else b).toNat + 77 * Nat.clog 2 (slotCount adds) + 1) w q k b ctx =
      .ok x := by
  have hpos : 0 < ix := h.wf.layout.szIX_pos
  have hs := splitsKept_of_length h.wf hix h.fits
  exact h.C113_cost hs (dot_shrinks h.wf hix8) ieee64_keyLaws dot_minKeys h2 w ⟨hq.length, dot_marginOk hq.length (by omega)⟩
    (h.ordinaryMargins hs ieee64_keyLaws (dotMargins64 h hix hn hv hq w)) hr

/-- **C113 for `float64`**, dot product, loaded indexes. -/
theorem C113_loaded_dot_float64 (h : Session (dotCfg ieee64 (bvCodec 8) R sI sP ix n) numCPU pol adds trees workers s s') (hix8 : ix ≤ 8)
    (hix : 3 * ix ≤ n) (hn : n ≤ 2 ^ 46) (hv : ∀ i v, lastAdded adds i = some v → Moderate64 n v) {q : List ieee64.V} (hq : Moderate64 n q)
    (hroots : s'.roots ≠ []) (h2 : 2 ≤ (addedIds adds).length)
    (hcp : (dotCfg ieee64 (bvCodec 8) R sI sP ix n).L.CopiesKept (slotCount adds)) {w : World} {path : String} (hf : FileOf s' w path)
    {bk : Backend} {u t : Idx (dotCfg ieee64 (bvCodec 8) R sI sP ix n)} (hl : u.load bk w path = .ok (.nil, t))
    {k b : Int} {fuel : Nat} {ctx : Ctx (dotCfg ieee64 (bvCodec 8) R sI sP ix n)} {x} (hr : t.getNnsByVector fuel w q k b ctx = .ok x) :
    t.getNnsByVector (2 * (if b = -1 then k * t.roots.length else b).toNat + 77 * Nat.clog 2 (slotCount adds) + 1) w q k b ctx =
      .ok x := by
  have hpos : 0 < ix := h.wf.layout.szIX_pos
  have hs := splitsKept_of_length h.wf hix h.fits
  have hck := h.countKept (show ix ≤ n by omega)
  have hsl : 2 ≤ slotCount adds := h2.trans (liveOf_length_le _ _)
  exact h.C113_cost_loaded hs (dot_shrinks h.wf hix8) hsl hroots hck hcp ieee64_keyLaws dot_minKeys h2 hf hl
    ⟨hq.length, dot_marginOk hq.length (by omega)⟩
    ((h.finiteBelow_loaded hsl hroots hck hs hcp hf hl (dotMargins64 h hix hn hv hq w)).ordinary ieee64_keyLaws) hr
end

/-! ### concrete case -/

/-- C113: the index of C83 - C85 with two items in 21 slots, built and loaded from its file; it answers a query with the budget 2. -/
example : ∃ s s', Session (angular32 4 12) 1 .single farAdds 1 1 s s' ∧ 4 ≤ 8 ∧ 3 * 4 ≤ 12 ∧
    (∀ i v, lastAdded farAdds i = some v → Moderate32 12 v) ∧ Moderate32 12 query12 ∧ s'.roots ≠ [] ∧ 2 ≤ (addedIds farAdds).length ∧
    (angular32 4 12).L.CopiesKept (slotCount farAdds) ∧
    (∀ w, ∃ ds o, s'.getNnsByVector 100 w query12 2 2 (wideCtx _) = .ok ([0, 20], ds, o)) ∧
    2 * 2 + 77 * Nat.clog 2 (slotCount farAdds) + 1 = 390 ∧
    ∃ w y, FileOf s' w "x" ∧ s'.load .mmap w "x" = .ok (.nil, y) ∧ ∃ fuel ctx z, y.getNnsByVector fuel w query12 2 2 ctx = .ok z := by
  obtain ⟨s, s', h, hs, hq, hv, hr, -, -, -, -, hw⟩ := C83_C85_case
  have hn : 2 ≤ slotCount farAdds := by decide +kernel
  have hck : (angular32 4 12).L.CopiesKept (slotCount farAdds) := Or.inl (by decide +kernel)
  have hk : (angular32 4 12).L.CountKept (slotCount farAdds) := by unfold Layout.CountKept; decide +kernel
  have hf := h.fileOf.2 (oneFile_read "x" _)
  obtain ⟨t, l1, _⟩ := h.reload hn hr hk hf .mmap s'
  obtain ⟨F, hF⟩ := C20_answers_loaded_partial h ieee32_lawful hn hr hk hs hck hf l1
  obtain ⟨x, e'⟩ := hF query12 ⟨hq.length, angular_marginOk hq.length (by decide)⟩ 2 2 ⟨List.replicate (t.roots.length * slotCount farAdds) 0, []⟩ F le_rfl
    (by simp only [List.length_replicate]; exact le_rfl)
  have h21 : slotCount farAdds = 21 := by decide +kernel
  exact ⟨s, s', h, by decide, le_rfl, hv, hq, hr, by decide +kernel, hck, fun w => (hw w).1, by rw [h21]; decide, _, t, hf, l1, _, _, x, e'⟩

end Annoy
