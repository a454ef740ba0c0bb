import Verif.Proof.FirstTree
import Verif.Proof.SearchCongr
import Verif.Props.SaveLoadOrder
/-!
# What more trees are good for (C86, C87, C88)

The trees of an index are searched one after the other (C71), and every tree holds all items.  So a budget of the number of items is enough
for the exact answer, whatever the number of trees (C86), and for *every* budget the answer is the answer of the first tree alone (C87).
`Build(1, …)` makes the same first tree as `Build(100, …)`, so the number of trees has no influence on the answers with a given budget (C88).
-/
namespace Annoy

namespace Search
variable {c : Cfg} {mem : Block} {n : Nat} {roots : List Nat} {m : Nat → Option (List c.N.V)} {ts : List Tree}

theorem itemsAmong_all {col : List Nat} (h : ∀ i, (m i).isSome → i ∈ col) : itemsAmong m n col = liveOf m n := by
  unfold itemsAmong liveOf
  apply List.filter_congr
  intro i _
  by_cases hi : (m i).isSome
  · simp only [hi, h i hi, and_self, decide_true]
  · simp [hi]

/-- With a budget of at least the number of items of the tree with the smallest root number, a search gathers all items of that tree. -/
theorem first_tree_gathered {N : Num} {x : Nat → N.V} (hk : N.KeyLaws) {t : Tree} {rest : List Tree} {vs G : List (N.V × Tree)}
    (h : BestFirst N x (((t :: rest).map fun t => (N.inf, t))) vs G) (hx : ∀ u ∈ t :: rest, ∀ i ∈ u.splitNodes, N.Finite (x i))
    (hr : ∀ u ∈ rest, t.root < u.root) {budget : Int} (hs : StopsAt budget vs G) (hb : (t.items.length : Int) ≤ budget) :
    ∃ va vr, vs = va ++ vr ∧ (gathered va).Perm t.items := by
  obtain ⟨va, vr, GA, i1, i2, i3⟩ := h.first_tree hk hx hr
  have hc := i2.content.2
  simp only [List.flatMap_cons, List.flatMap_nil, List.append_nil] at hc
  refine ⟨va, vr, i1, ?_⟩
  have hGA : (GA.flatMap fun e => e.2.items) = [] := by
    rcases i3 with ⟨rfl, hG⟩ | ⟨rfl, -⟩
    · rw [List.append_nil] at i1
      subst i1
      rcases hs.finished with hf | hf
      · rw [hf] at hG
        have := hG.symm.eq_nil
        simp only [List.append_eq_nil_iff] at this
        rw [this.1]; rfl
      · have hl := hc.length_eq
        rw [List.length_append] at hl
        exact List.eq_nil_of_length_eq_zero (by omega)
    · rfl
  rw [hGA, List.append_nil] at hc
  exact hc

/-- **C86**, for the trees of an index: a budget of the number of items of the first tree gives the exact answer. -/
theorem exact_of_first_tree (hc : c.WF) (hk : c.N.KeyLaws) (hM : MinKeys c) (h : Searchable c mem n roots m ts) (C : Complete m ts)
    {query : List c.N.V} (hq : GoodQuery c query) {t : Tree} (ht : t ∈ ts)
    (hx : ∀ t ∈ ts, ∀ i ∈ t.splitNodes, c.N.Finite (marginOf c mem query i)) (hroots : roots.Nodup)
    (hfirst : ∀ u ∈ ts, t.root ≤ u.root) {k b : Int} {fuel : Nat} (hb : (t.items.length : Int) ≤ (if b = -1 then k * roots.length else b))
    {ctx : Ctx c} {ids : List Nat} {ds : List c.N.V} {ctx' : Ctx c} (hr : run c fuel mem n roots query k b ctx = .ok (ids, ds, ctx')) :
    t.items.length ≤ ctx.nns.length ∧
      TopK c.N c.D.normalizedDistance (itemDist c m query) (liveOf m n) k.toNat ids ds ∧
      ids = (best c m query k (liveOf m n)).map Prod.snd ∧
      ds = (best c m query k (liveOf m n)).map fun p => c.D.normalizedDistance p.1 := by
  have ho : ∀ t ∈ ts, ∀ j ∈ t.splitNodes, c.N.Ordinary (marginOf c mem query j) :=
    fun t ht j hj => (hk.lt_ordinary _ _ (hx t ht j hj).1).1
  obtain ⟨vs, G, r1, r2, r3, r4⟩ := walk_answer hc hk hM h hq ho hr
  obtain ⟨rest, p, hlt⟩ := first_split ht (by rw [h.roots]; exact hroots) hfirst
  have r2' := r2.perm (p.symm.map fun t => (c.N.inf, t))
  obtain ⟨va, vr, hv, hg⟩ := first_tree_gathered hk r2' (fun u hu => hx u (p.symm.subset hu)) hlt r3 hb
  have hall : ∀ i, (m i).isSome → i ∈ gathered vs := by
    intro i hi
    rw [hv, gathered_append]
    exact List.mem_append_left _ (hg.symm.subset (C t ht i hi))
  rw [itemsAmong_all hall] at r4
  obtain ⟨col, e1, e2⟩ := collect_of_run hr
  rw [r1] at e1
  cases e1
  have below : ∀ i ∈ gathered vs, i < n := by
    intro i hi
    have := r2.content.2.subset (List.mem_append_left _ hi)
    simp only [List.mem_flatMap, List.mem_map] at this
    obtain ⟨e, ⟨t, ht, rfl⟩, hi⟩ := this
    exact h.below t ht i hi
  have hbest := run_best hc h hq.length r1 below e2 hr
  rw [itemsAmong_all hall] at hbest
  refine ⟨?_, r4, hbest⟩
  rw [hv, gathered_append, List.length_append, hg.length_eq] at e2
  omega

/-- Neither fuel nor context matter for the answer. -/
theorem run_same (hc : c.WF) (hN : c.N.Lawful) (h : Searchable c mem n roots m ts) {query : List c.N.V} (hq : GoodQuery c query)
    {k b : Int} {fuel fuel' : Nat} {ctx ctx' o o' : Ctx c} {ids ids' : List Nat} {ds ds' : List c.N.V}
    (hr : run c fuel mem n roots query k b ctx = .ok (ids, ds, o)) (hr' : run c fuel' mem n roots query k b ctx' = .ok (ids', ds', o')) :
    ids' = ids ∧ ds' = ds := by
  obtain ⟨done, rest, d1, d2, d3, d4⟩ := answer hc hN h hq hr
  obtain ⟨col, e1, e2⟩ := collect_of_run hr
  obtain ⟨col', e1', e2'⟩ := collect_of_run hr'
  obtain rfl := collect_det e1 e1'
  obtain rfl := collect_det e1 d3
  obtain ⟨a1, a2⟩ := run_best hc h hq.length e1 (col_below h d1) e2 hr
  obtain ⟨b1, b2⟩ := run_best hc h hq.length e1' (col_below h d1) e2' hr'
  exact ⟨b1.trans a1.symm, b2.trans a2.symm⟩

/-- **C87**, for the trees of an index: the answer is the answer of the first tree alone with the same budget. -/
theorem first_tree_suffices (hc : c.WF) (hk : c.N.KeyLaws) (hM : MinKeys c) (h : Searchable c mem n roots m ts) (C : Complete m ts)
    {query : List c.N.V} (hq : GoodQuery c query) {t : Tree} (ht : t ∈ ts) (hn : t.nodes.Nodup)
    (hx : ∀ t ∈ ts, ∀ i ∈ t.splitNodes, c.N.Finite (marginOf c mem query i)) (hroots : roots.Nodup)
    (hfirst : ∀ u ∈ ts, t.root ≤ u.root) {k b : Int} {fuel : Nat} (h0 : 0 ≤ (if b = -1 then k * roots.length else b))
    {ctx : Ctx c} {ids : List Nat} {ds : List c.N.V} {ctx' : Ctx c} (hr : run c fuel mem n roots query k b ctx = .ok (ids, ds, ctx'))
    {fuel' : Nat} (hf : t.size < fuel') :
    ∃ ctx'', run c fuel' mem n [t.root] query k (if b = -1 then k * roots.length else b) ctx = .ok (ids, ds, ctx'') := by
  by_cases hb : (if b = -1 then k * roots.length else b) ≤ t.items.length
  · exact ⟨_, first_tree_answer hc hk hM h hq ht hn hx hroots hfirst h0 hb hr hf⟩
  · have hb' : (t.items.length : Int) ≤ (if b = -1 then k * roots.length else b) := by omega
    obtain ⟨e1, -, e2, e3⟩ := exact_of_first_tree hc hk hM h C hq ht hx hroots hfirst hb' hr
    have S1 := Searchable.one h ht
    have C1 : Complete m [t] := fun u hu => by rw [List.mem_singleton] at hu; subst hu; exact C u ht
    have hf' : Tree.sizes [t] < fuel' := by simpa [Tree.sizes] using hf
    rcases outcome hc hk.lawful S1 hq k (if b = -1 then k * roots.length else b) hf' ctx with ⟨⟨ids', ds', o⟩, hr'⟩ | ⟨hl, -⟩
    · have hne : (if b = -1 then k * (roots.length : Int) else b) ≠ -1 := by omega
      obtain ⟨-, -, e2', e3'⟩ := exact_of_first_tree hc hk hM S1 C1 hq (List.mem_singleton.2 rfl)
        (fun u hu => by rw [List.mem_singleton] at hu; subst hu; exact hx u ht) (List.nodup_singleton _)
        (fun u hu => by rw [List.mem_singleton] at hu; subst hu; exact le_refl _) (by rw [if_neg hne]; exact hb') hr'
      rw [e2, e3, ← e2', ← e3']
      exact ⟨o, hr'⟩
    · simp at hl; omega

end Search

/-! ### the nodes of a tree are different -/

theorem SubTree.items_ne_nil {L : Layout} {b : Bytes} {n : Nat} {t : Tree} (h : SubTree L b n t) : t.items ≠ [] := by
  cases t with
  | item i => simp [Tree.items]
  | hole i => exact h.elim
  | bucket i ids => intro h0; have h2 := h.2.1; rw [show ids = [] from h0] at h2; simp at h2
  | split i l r => intro h0; exact h.2.2.2.2.2.2.2.1 (List.append_eq_nil_iff.1 h0).1

/-- The memory determines a subtree. -/
theorem SubTree.unique {L : Layout} {sz : Nat} (hL : L.Ok sz) {b : Bytes} {n : Nat} {t t' : Tree} (h : SubTree L b n t)
    (h' : SubTree L b n t') (hr : t.root = t'.root) : t = t' := by
  have hK := hL.K_ge
  induction t generalizing t' with
  | hole i => exact h.elim
  | item i =>
    cases t' with
    | item j => rw [show i = j from hr]
    | hole j => exact h'.elim
    | bucket j ids =>
      obtain rfl : i = j := hr
      exact absurd h.1 (Nat.not_lt.2 h'.1)
    | split j l r =>
      obtain rfl : i = j := hr
      exact absurd h.1 (Nat.not_lt.2 h'.1)
  | bucket i ids =>
    cases t' with
    | item j =>
      obtain rfl : i = j := hr
      exact absurd h'.1 (Nat.not_lt.2 h.1)
    | hole j => exact h'.elim
    | bucket j ids' =>
      obtain rfl : i = j := hr
      rw [← h.2.2.2.2.1, ← h'.2.2.2.2.1]
    | split j l r =>
      obtain rfl : i = j := hr
      obtain ⟨-, -, a1, a2, -⟩ := h
      obtain ⟨-, -, -, a3, -⟩ := h'
      omega
  | split i l r ihl ihr =>
    cases t' with
    | item j =>
      obtain rfl : i = j := hr
      exact absurd h'.1 (Nat.not_lt.2 h.1)
    | hole j => exact h'.elim
    | bucket j ids' =>
      obtain rfl : i = j := hr
      obtain ⟨-, -, a1, a2, -⟩ := h'
      obtain ⟨-, -, -, a3, -⟩ := h
      omega
    | split j l' r' =>
      obtain rfl : i = j := hr
      obtain ⟨-, -, -, -, -, a1, a2, -, -, a3, a4⟩ := h
      obtain ⟨-, -, -, -, -, b1, b2, -, -, b3, b4⟩ := h'
      rw [ihl a3 b3 (a1.symm.trans b1), ihr a4 b4 (a2.symm.trans b2)]

/-- Every node of a subtree is the root of a subtree, whose items are among the items of the whole, and has at most its number. -/
theorem SubTree.at_node {L : Layout} {b : Bytes} {n : Nat} {t : Tree} (h : SubTree L b n t) {y : Nat} (hy : y ∈ t.nodes) :
    ∃ u, SubTree L b n u ∧ u.root = y ∧ (∀ i ∈ u.items, i ∈ t.items) ∧ y ≤ t.root := by
  induction t with
  | hole i => exact h.elim
  | item i =>
    have e : y = i := by simpa [Tree.nodes] using hy
    exact ⟨_, h, e.symm, fun _ h => h, by rw [e]; exact le_refl _⟩
  | bucket i ids =>
    have e : y = i := by simpa [Tree.nodes] using hy
    exact ⟨_, h, e.symm, fun _ h => h, by rw [e]; exact le_refl _⟩
  | split i l r ihl ihr =>
    have hh := h
    obtain ⟨-, h1, h2, -, -, -, -, -, -, hl, hr⟩ := h
    simp only [Tree.nodes, List.mem_cons, List.mem_append] at hy
    rcases hy with rfl | hy | hy
    · exact ⟨_, hh, rfl, fun _ h => h, le_refl _⟩
    · obtain ⟨u, u1, u2, u3, u4⟩ := ihl hl hy
      exact ⟨u, u1, u2, fun i hi => by simp [Tree.items, u3 i hi], by show y ≤ i; omega⟩
    · obtain ⟨u, u1, u2, u3, u4⟩ := ihr hr hy
      exact ⟨u, u1, u2, fun i hi => by simp [Tree.items, u3 i hi], by show y ≤ i; omega⟩

/-- Two subtrees without common items have no common nodes. -/
theorem SubTree.disjoint {L : Layout} {sz : Nat} (hL : L.Ok sz) {b : Bytes} {n : Nat} {l r : Tree} (hl : SubTree L b n l)
    (hr : SubTree L b n r) (hd : ∀ i ∈ l.items, i ∉ r.items) : ∀ y ∈ l.nodes, y ∉ r.nodes := by
  intro y h1 h2
  obtain ⟨u, u1, u2, u3, -⟩ := hl.at_node h1
  obtain ⟨v, v1, v2, v3, -⟩ := hr.at_node h2
  obtain rfl := u1.unique hL v1 (u2.trans v2.symm)
  obtain ⟨i, hi⟩ := List.exists_mem_of_ne_nil _ u1.items_ne_nil
  exact hd i (u3 i hi) (v3 i hi)

theorem SubTree.nodes_different {L : Layout} {sz : Nat} (hL : L.Ok sz) {b : Bytes} {n : Nat} {t : Tree} (h : SubTree L b n t)
    (hi : t.items.Nodup) : t.nodes.Nodup := by
  induction t with
  | hole i => exact h.elim
  | item i => simp [Tree.nodes]
  | bucket i ids => simp [Tree.nodes]
  | split i l r ihl ihr =>
    obtain ⟨-, h1, h2, -, -, -, -, -, -, hl, hr⟩ := h
    simp only [Tree.items] at hi
    rw [List.nodup_append] at hi
    simp only [Tree.nodes]
    rw [List.nodup_cons, List.nodup_append, List.mem_append]
    refine ⟨?_, ihl hl hi.1, ihr hr hi.2.1, ?_⟩
    · rintro (hy | hy)
      · obtain ⟨-, -, -, -, h4⟩ := hl.at_node hy; omega
      · obtain ⟨-, -, -, -, h4⟩ := hr.at_node hy; omega
    · intro a ha b hb e
      subst e
      exact hl.disjoint hL hr (fun i h1 h2 => hi.2.2 i h1 i h2 rfl) a ha hb

/-- The nodes of a complete tree are different, in a built and in a loaded index. -/
theorem RootTree.nodes_different {L : Layout} {sz : Nat} (hL : L.Ok sz) {b : Bytes} {n : Nat} {live : List Nat} {t : Tree}
    (h : RootTree L b n live t) (hd : live.Nodup) (hlive : ∀ i ∈ live, i < n) : t.nodes.Nodup := by
  cases t with
  | hole i => exact h.elim
  | item i => exact h.elim
  | bucket i ids => simp [Tree.nodes]
  | split i l r =>
    obtain ⟨h0, h1, h2, h3, -, -, -, h8⟩ := h
    rcases h8 with ⟨-, -, hp, hl, hr⟩ | ⟨j, rfl, hj, rfl, rfl, h0'⟩
    · have hi := hp.nodup_iff.2 hd
      rw [List.nodup_append] at hi
      simp only [Tree.nodes]
      rw [List.nodup_cons, List.nodup_append, List.mem_append]
      refine ⟨?_, hl.nodes_different hL hi.1, hr.nodes_different hL hi.2.1, ?_⟩
      · rintro (hy | hy)
        · obtain ⟨-, -, -, -, h4⟩ := hl.at_node hy; omega
        · obtain ⟨-, -, -, -, h4⟩ := hr.at_node hy; omega
      · intro a ha b hb e
        subst e
        exact hl.disjoint hL hr (fun i h1 h2 => hi.2.2 i h1 i h2 rfl) a ha hb
    · have hj1 : j < n := hj.1
      have hj0 : j ≠ 0 := by
        rintro rfl
        have : ndAt L b 0 = 1 := hj.2
        omega
      simp only [Tree.nodes, List.cons_append, List.nil_append, List.nodup_cons, List.mem_cons, List.not_mem_nil, or_false,
        not_false_eq_true, List.nodup_nil, and_true]
      simp only [Tree.root] at h1 h2
      omega

/-! ## Indexes -/

/-- The margins of a query at the inner nodes below the roots of an index are finite. -/
def FiniteBelow {c : Cfg} (s : Idx c) (w : World) (query : List c.N.V) : Prop :=
  ∀ t : Tree, t.root ∈ s.roots → Holds c.L (s.mem w).get s.nItems t → ∀ i ∈ t.splitNodes,
    ∀ y, c.D.margin (s.mem w).get (i * c.L.nodeSize) query = .ok y → c.N.Finite y

theorem Session.finiteBelow {c : Cfg} {numCPU : Nat} {pol : BuildPolicy} {adds : List (Nat × List c.N.V)} {trees workers : Int}
    {s s' : Idx c} (h : Session c numCPU pol adds trees workers s s') (hs : SplitsKept c numCPU pol (slotCount adds) trees workers)
    {w : World} {query : List c.N.V} (hfin : FiniteMargins s' w query) : FiniteBelow s' w query := by
  obtain ⟨ts, S, -, -, -, hroot, hinner⟩ := h.searchable_inner hs w
  intro t ht hh i hi y hy
  rw [← S.roots] at ht
  obtain ⟨u, hu, e⟩ := List.mem_map.1 ht
  rw [hh.splitNodes_unique h.wf.layout (S.walk u hu).holds e.symm] at hi
  have := inner_margins S hinner hfin u hu i hi
  unfold marginOf at this
  rw [hy] at this
  exact this

theorem FiniteBelow.margins {c : Cfg} {s : Idx c} {w : World} {query : List c.N.V} (h : FiniteBelow s w query) (hm : MarginOk c query)
    {m : Nat → Option (List c.N.V)} {ts : List Tree} (S : Searchable c (s.mem w) s.nItems s.roots m ts) :
    ∀ t ∈ ts, ∀ i ∈ t.splitNodes, c.N.Finite (marginOf c (s.mem w) query i) := by
  intro t ht i hi
  obtain ⟨y, hy⟩ := hm (s.mem w).get (i * c.L.nodeSize)
  unfold marginOf
  rw [hy]
  exact h t (by rw [← S.roots]; exact List.mem_map_of_mem ht) (S.walk t ht).holds i hi y hy

theorem Tree.exists_first : ∀ {ts : List Tree}, ts ≠ [] → ∃ t ∈ ts, ∀ u ∈ ts, t.root ≤ u.root
  | [], h => (h rfl).elim
  | [t], _ => ⟨t, by simp, by simp⟩
  | t :: u :: ts, _ => by
    obtain ⟨v, h1, h2⟩ := Tree.exists_first (ts := u :: ts) (by simp)
    by_cases h : t.root ≤ v.root
    · refine ⟨t, by simp, fun x hx => ?_⟩
      rcases List.mem_cons.1 hx with rfl | hx
      · exact le_refl _
      · exact h.trans (h2 x hx)
    · refine ⟨v, List.mem_cons_of_mem _ h1, fun x hx => ?_⟩
      rcases List.mem_cons.1 hx with rfl | hx
      · omega
      · exact h2 x hx

/-- **C86**, for the trees of an index, with the number of items. -/
theorem Search.exact_of_budget {c : Cfg} {mem : Block} {n : Nat} {roots : List Nat} {m : Nat → Option (List c.N.V)} {ts : List Tree}
    (hc : c.WF) (hk : c.N.KeyLaws) (hM : MinKeys c) (h : Searchable c mem n roots m ts) (C : Complete m ts)
    (U : (∀ t ∈ ts, t.items.Perm (liveOf m n)) ∨ ∀ t ∈ ts, t.leaves = [t]) {query : List c.N.V} (hq : GoodQuery c query)
    (hx : ∀ t ∈ ts, ∀ i ∈ t.splitNodes, c.N.Finite (marginOf c mem query i)) (hroots : roots.Nodup) (hne : roots ≠ [])
    {k b : Int} {fuel : Nat} (hb : ((liveOf m n).length : Int) ≤ (if b = -1 then k * roots.length else b))
    {ctx : Ctx c} {ids : List Nat} {ds : List c.N.V} {ctx' : Ctx c} (hr : run c fuel mem n roots query k b ctx = .ok (ids, ds, ctx')) :
    TopK c.N c.D.normalizedDistance (itemDist c m query) (liveOf m n) k.toNat ids ds := by
  rcases U with U | U
  · obtain ⟨t, ht, hfirst⟩ := Tree.exists_first (ts := ts) (by rintro rfl; exact hne (by rw [← h.roots]; rfl))
    exact (exact_of_first_tree hc hk hM h C hq ht hx hroots hfirst (by rw [(U t ht).length_eq]; exact hb) hr).2.1
  · obtain ⟨done, rest, d1, d2, d3, d4⟩ := answer hc hk.lawful h hq hr
    by_cases h1 : 1 ≤ (if b = -1 then k * (roots.length : Int) else b)
    · rw [itemsAmong_all fun i hi =>
        bucket_all C U d1 d2 (by rintro rfl; exact hne (by rw [← h.roots]; rfl)) h1 hi] at d4
      exact d4
    · have h0 : liveOf m n = [] := List.eq_nil_of_length_eq_zero (by omega)
      have : itemsAmong m n (done.flatMap Tree.items) = liveOf m n := by
        rw [h0]
        refine List.eq_nil_iff_forall_not_mem.2 fun i hi => ?_
        have h2 := mem_itemsAmong.1 hi
        have : i ∈ liveOf m n := mem_liveOf.2 ⟨h2.1, h2.2.2⟩
        rw [h0] at this
        cases this
      rw [this] at d4
      exact d4

section
variable {c : Cfg} {numCPU : Nat} {pol : BuildPolicy} {adds : List (Nat × List c.N.V)} {trees workers : Int} {s s' : Idx c}

theorem Session.roots_nodup (h : Session c numCPU pol adds trees workers s s')
    (hs : SplitsKept c numCPU pol (slotCount adds) trees workers) : s'.roots.Nodup := by
  obtain ⟨ts, S, -, -, -, hroot, hinner⟩ := h.searchable_inner hs (oneFile "" [])
  rw [← S.roots]
  exact Tree.roots_nodup hroot (hinner.nodup_iff.2 List.nodup_range')

/-- **C86**, given that inner nodes survive being written and the margins of the query are finite: a search whose budget (`searchK`, or
`numReturn * len(roots)` for -1) is at least the number of added items is a linear scan over them, however many trees there are. -/
theorem Session.C86_items_suffice (h : Session c numCPU pol adds trees workers s s')
    (hs : SplitsKept c numCPU pol (slotCount adds) trees workers) (hk : c.N.KeyLaws) (hM : MinKeys c) (w : World) {query : List c.N.V}
    (hq : GoodQuery c query) (hfin : FiniteBelow s' w query) (hne : s'.roots ≠ []) {k b : Int} {fuel : Nat}
    (hb : ((addedIds adds).length : Int) ≤ (if b = -1 then k * s'.roots.length else b)) {ctx ctx' : Ctx c} {ids : List Nat}
    {ds : List c.N.V} (hr : s'.getNnsByVector fuel w query k b ctx = .ok (ids, ds, ctx')) :
    TopK c.N c.D.normalizedDistance (itemDist c (lastAdded adds) query) (addedIds adds) k.toNat ids ds ∧
    ((∀ i ∈ addedIds adds, c.N.Ordinary (itemDist c (lastAdded adds) query i)) →
      ids = nearest c.N (itemDist c (lastAdded adds) query) (addedIds adds) k.toNat) := by
  obtain ⟨ts, S, C, U, -⟩ := h.searchable_inner hs w
  obtain ⟨N0, B, _⟩ := h.built
  have e : liveOf (lastAdded adds) s'.nItems = addedIds adds := by rw [B.nItems]
  have d4 := Search.exact_of_budget h.wf hk hM S C (by rw [e]; exact U) hq (hfin.margins hq.margin S) (h.roots_nodup hs) hne
    (by rw [e]; exact hb) hr
  rw [e] at d4
  exact ⟨d4, fun ho => (d4.unique hk.lawful (nearest_topK hk.lawful _ (liveOf_nodup _ _) ho k.toNat) (List.Perm.refl _) ho).1⟩

/-- The margins of a query in a loaded index are finite if they were in the built one. -/
theorem Session.finiteBelow_loaded (h : Session c numCPU pol adds trees workers s s')
    (hn : 2 ≤ slotCount adds) (hroots : s'.roots ≠ []) (hk : c.L.CountKept (slotCount adds))
    (hs : SplitsKept c numCPU pol (slotCount adds) trees workers) (hck : c.L.CopiesKept (slotCount adds))
    {w0 w : World} {path : String} (hf : FileOf s' w path) {bk : Backend} {u t : Idx c}
    (hl : u.load bk w path = .ok (.nil, t)) {query : List c.N.V} (hfin : FiniteMargins s' w0 query) : FiniteBelow t w query := by
  obtain ⟨h1, e, ts, S, C, U, Z⟩ := h.reload_complete hn hroots hk hs hck hf hl
  obtain ⟨t', h2, N0, B, hN, R⟩ := h.reload hn hroots hk hf bk u
  rw [hl] at h2
  cases h2
  have hN0 := B.nNodes
  obtain ⟨hm0, -⟩ := B.mem_eq w0 (by have := List.length_pos_iff.2 hroots; omega)
  intro x hx hh i hi y hy
  rw [← S.roots] at hx
  obtain ⟨v, hv, ev⟩ := List.mem_map.1 hx
  rw [hh.splitNodes_unique h.wf.layout (S.walk v hv).holds ev.symm] at hi
  obtain ⟨g1, g2⟩ := Holds.splitNodes (S.walk v hv).holds i hi
  have hZ := Z v hv
  have hvr : v.root < s'.nNodes := by
    have : v.root ∈ t.roots := by rw [← S.roots]; exact List.mem_map_of_mem hv
    obtain ⟨j, j1, j2, -, -, j5⟩ := R.roots_or
    rcases j5 with j5 | ⟨j5, -⟩ <;> rw [j5, List.mem_reverse, List.mem_range'_1] at this <;> omega
  -- where the node is
  have hin : slotCount adds ≤ i ∧ i < s'.nNodes ∧ c.L.K < slotCount adds := by
    cases v with
    | item j => exact hZ.elim
    | hole j => exact hZ.elim
    | bucket j ids => simp [Tree.splitNodes] at hi
    | split j l r =>
      obtain ⟨z0, z1, z2, z3, -, -, -, z8⟩ := hZ
      simp only [Tree.splitNodes, List.mem_cons, List.mem_append] at hi
      have sub : ∀ {d : Tree}, SubTree c.L (t.mem w).get (slotCount adds) d → d.root < j → i ∈ d.splitNodes →
          slotCount adds ≤ i ∧ i < s'.nNodes := by
        intro d hd hdj hid
        have hnode : i ∈ d.nodes := by
          clear hd hdj
          induction d with
          | split a l r ihl ihr =>
            simp only [Tree.splitNodes, List.mem_cons, List.mem_append] at hid
            simp only [Tree.nodes, List.mem_cons, List.mem_append]
            rcases hid with rfl | hid | hid
            · exact Or.inl rfl
            · exact Or.inr (Or.inl (ihl hid))
            · exact Or.inr (Or.inr (ihr hid))
          | _ => simp [Tree.splitNodes] at hid
        obtain ⟨x, x1, x2, -, x4⟩ := hd.at_node hnode
        refine ⟨?_, by simp only [Tree.root] at hvr; omega⟩
        have hKi := g1
        cases x with
        | item q =>
          obtain rfl : q = i := x2
          have h1 : ndAt c.L (t.mem w).get q = 1 := x1.2
          have := h.wf.layout.K_ge
          omega
        | hole q => exact x1.elim
        | bucket q ids => obtain rfl : q = i := x2; exact x1.1
        | split q l r => obtain rfl : q = i := x2; exact x1.1
      rcases z8 with ⟨-, -, -, hl, hr⟩ | ⟨q, -, -, rfl, rfl, -⟩
      · rcases hi with rfl | hi | hi
        · exact ⟨z0, hvr, z3⟩
        · exact ⟨(sub hl z1 hi).1, (sub hl z1 hi).2, z3⟩
        · exact ⟨(sub hr z2 hi).1, (sub hr z2 hi).2, z3⟩
      · rcases hi with rfl | hi | hi
        · exact ⟨z0, hvr, z3⟩
        · simp [Tree.splitNodes] at hi
        · simp [Tree.splitNodes] at hi
  obtain ⟨i1, i2, hK⟩ := hin
  have hd : c.L.Deep N0 := by
    rcases hs with hs | hs
    · omega
    · exact hs.mono hN
  rw [R.mem] at g1 hy
  have hitems : s'.nItems = slotCount adds := B.nItems
  by_cases hlt : i < N0
  · obtain ⟨y', y1, y2⟩ := hfin i (by omega) (by omega) (by rw [hm0]; exact g1)
    rw [hm0] at y1
    have : c.D.margin s'.alloc.data (i * c.L.nodeSize) query = .ok y' := y1
    rw [show (⟨s'.nNodes * c.L.nodeSize, s'.alloc.data⟩ : Block).get = s'.alloc.data from rfl, this] at hy
    cases hy
    exact y2
  · obtain ⟨k, rfl⟩ : ∃ k, i = N0 + k := ⟨i - N0, by omega⟩
    have hkr : k < s'.roots.length := by omega
    have hsame := B.copy_same hk hd hK hkr
    obtain ⟨r1, r2⟩ := B.roots_lt _ (List.getElem_mem hkr)
    have hnd := (B.counted _ (List.getElem_mem hkr)).eq hk
    obtain ⟨y', y1, y2⟩ := hfin (s'.roots[k]) (by omega) (by omega) (by
      rw [hm0]
      show c.L.K < ndAt c.L s'.alloc.data (s'.roots[k])
      omega)
    rw [hm0] at y1
    have e1 : c.D.margin s'.alloc.data ((N0 + k) * c.L.nodeSize) query = c.D.margin s'.alloc.data (s'.roots[k] * c.L.nodeSize) query :=
      h.wf.margin _ _ _ _ _ fun j hj => hsame j hj
    have e2 : c.D.margin s'.alloc.data (s'.roots[k] * c.L.nodeSize) query = .ok y' := y1
    rw [show (⟨s'.nNodes * c.L.nodeSize, s'.alloc.data⟩ : Block).get = s'.alloc.data from rfl, e1, e2] at hy
    cases hy
    exact y2

/-- **C86** for loaded indexes. -/
theorem Session.C86_items_suffice_loaded (h : Session c numCPU pol adds trees workers s s')
    (hn : 2 ≤ slotCount adds) (hroots : s'.roots ≠ []) (hk : c.L.CountKept (slotCount adds))
    (hs : SplitsKept c numCPU pol (slotCount adds) trees workers) (hck : c.L.CopiesKept (slotCount adds)) (hkl : c.N.KeyLaws)
    (hM : MinKeys c) {w : World} {path : String} (hf : FileOf s' w path) {bk : Backend} {u t : Idx c}
    (hl : u.load bk w path = .ok (.nil, t)) {query : List c.N.V} (hq : GoodQuery c query) (hfin : FiniteBelow t w query)
    {k b : Int} {fuel : Nat} (hb : ((addedIds adds).length : Int) ≤ (if b = -1 then k * t.roots.length else b))
    {ctx ctx' : Ctx c} {ids : List Nat} {ds : List c.N.V} (hr : t.getNnsByVector fuel w query k b ctx = .ok (ids, ds, ctx')) :
    TopK c.N c.D.normalizedDistance (itemDist c (lastAdded adds) query) (addedIds adds) k.toNat ids ds ∧
    ((∀ i ∈ addedIds adds, c.N.Ordinary (itemDist c (lastAdded adds) query i)) →
      ids = nearest c.N (itemDist c (lastAdded adds) query) (addedIds adds) k.toNat) := by
  obtain ⟨h1, e, ts, S, C, U, Z⟩ := h.reload_complete hn hroots hk hs hck hf hl
  obtain ⟨t', h2, N0, B, hN, R⟩ := h.reload hn hroots hk hf bk u
  rw [hl] at h2
  cases h2
  have d4 := Search.exact_of_budget h.wf hkl hM S C (by rw [e]; exact U) hq (hfin.margins hq.margin S) R.roots_nodup h1
    (by rw [e]; exact hb) hr
  rw [e] at d4
  exact ⟨d4, fun ho => (d4.unique hkl.lawful (nearest_topK hkl.lawful _ (liveOf_nodup _ _) ho k.toNat) (List.Perm.refl _) ho).1⟩

/-- **C87**, given that inner nodes survive being written and the margins of the query are finite: for every `numReturn`, budget (not
negative) and context, the answer is the answer of the index with its first tree only, asked with the same budget.  The trees behind the
first one have no influence on any answer. -/
theorem Session.C87_first_tree_suffices (h : Session c numCPU pol adds trees workers s s')
    (hs : SplitsKept c numCPU pol (slotCount adds) trees workers) (hk : c.N.KeyLaws) (hM : MinKeys c) (w : World) {query : List c.N.V}
    (hq : GoodQuery c query) (hfin : FiniteBelow s' w query) {r : Nat} (hr : r ∈ s'.roots) (hmin : ∀ r' ∈ s'.roots, r ≤ r')
    {k b : Int} {fuel : Nat} (h0 : 0 ≤ (if b = -1 then k * s'.roots.length else b)) {ctx ctx' : Ctx c} {ids : List Nat} {ds : List c.N.V}
    (hrun : s'.getNnsByVector fuel w query k b ctx = .ok (ids, ds, ctx')) :
    ∃ fuel' ctx'', { s' with roots := [r] }.getNnsByVector fuel' w query k (if b = -1 then k * s'.roots.length else b) ctx =
      .ok (ids, ds, ctx'') := by
  obtain ⟨ts, S, C, -, -, hroot, -⟩ := h.searchable_inner hs w
  rw [← S.roots] at hr
  obtain ⟨t, ht, rfl⟩ := List.mem_map.1 hr
  obtain ⟨o, ho⟩ := Search.first_tree_suffices h.wf hk hM S C hq ht
    ((hroot t ht).nodes_different h.wf.layout (liveOf_nodup _ _) (fun i hi => by
      obtain ⟨N0, B, _⟩ := h.built
      rw [B.nItems]; exact (mem_liveOf.1 hi).1))
    (hfin.margins hq.margin S) (h.roots_nodup hs) (fun u hu => hmin _ (by rw [← S.roots]; exact List.mem_map_of_mem hu)) h0 hrun
    (Nat.lt_succ_self _)
  exact ⟨_, o, ho⟩

/-- **C87** for loaded indexes. -/
theorem Session.C87_first_tree_suffices_loaded (h : Session c numCPU pol adds trees workers s s')
    (hn : 2 ≤ slotCount adds) (hroots : s'.roots ≠ []) (hk : c.L.CountKept (slotCount adds))
    (hs : SplitsKept c numCPU pol (slotCount adds) trees workers) (hck : c.L.CopiesKept (slotCount adds)) (hkl : c.N.KeyLaws)
    (hM : MinKeys c) {w : World} {path : String} (hf : FileOf s' w path) {bk : Backend} {u t : Idx c}
    (hl : u.load bk w path = .ok (.nil, t)) {query : List c.N.V} (hq : GoodQuery c query) (hfin : FiniteBelow t w query)
    {r : Nat} (hr : r ∈ t.roots) (hmin : ∀ r' ∈ t.roots, r ≤ r')
    {k b : Int} {fuel : Nat} (h0 : 0 ≤ (if b = -1 then k * t.roots.length else b)) {ctx ctx' : Ctx c} {ids : List Nat} {ds : List c.N.V}
    (hrun : t.getNnsByVector fuel w query k b ctx = .ok (ids, ds, ctx')) :
    ∃ fuel' ctx'', { t with roots := [r] }.getNnsByVector fuel' w query k (if b = -1 then k * t.roots.length else b) ctx =
      .ok (ids, ds, ctx'') := by
  obtain ⟨h1, e, ts, S, C, U, Z⟩ := h.reload_complete hn hroots hk hs hck hf hl
  obtain ⟨t', h2, N0, B, hN, R⟩ := h.reload hn hroots hk hf bk u
  rw [hl] at h2
  cases h2
  rw [← S.roots] at hr
  obtain ⟨v, hv, rfl⟩ := List.mem_map.1 hr
  obtain ⟨o, ho⟩ := Search.first_tree_suffices h.wf hkl hM S C hq hv
    ((Z v hv).nodes_different h.wf.layout (liveOf_nodup _ _) (fun i hi => (mem_liveOf.1 hi).1))
    (hfin.margins hq.margin S) R.roots_nodup (fun u hu => hmin _ (by rw [← S.roots]; exact List.mem_map_of_mem hu)) h0 hrun
    (Nat.lt_succ_self _)
  exact ⟨_, o, ho⟩

/-- Two indexes that one worker built over the same items with the same generator, with different numbers of trees, answer alike if both answer as
their first trees do. -/
theorem Session.same_of_first {numCPU' : Nat} {trees' workers' : Int} {s'' : Idx c}
    (h : Session c numCPU .single adds trees workers s s') (h' : Session c numCPU' .single adds trees' workers' s s'')
    (hs : SplitsKept c numCPU .single (slotCount adds) trees workers) (hlaw : c.N.Lawful) (hne : s'.roots ≠ [])
    (hne' : s''.roots ≠ []) {w w' : World} {query : List c.N.V} (hq : GoodQuery c query) {k budget : Int}
    {ctx ctx' : Ctx c} {ids ids' : List Nat} {ds ds' : List c.N.V}
    (H : ∀ r ∈ s'.roots, (∀ r' ∈ s'.roots, r ≤ r') →
      ∃ fuel o, { s' with roots := [r] }.getNnsByVector fuel w query k budget ctx = .ok (ids, ds, o))
    (H' : ∀ r ∈ s''.roots, (∀ r' ∈ s''.roots, r ≤ r') →
      ∃ fuel o, { s'' with roots := [r] }.getNnsByVector fuel w' query k budget ctx' = .ok (ids', ds', o)) : ids' = ids ∧ ds' = ds := by
  obtain ⟨hi1, hi2, hi3, -⟩ := h.start
  have hbuild : ∀ {nc : Nat} {tr wk : Int} {u : Idx c}, Session c nc .single adds tr wk s u → ∃ rf tf lf, s.build rf tf lf tr = .ok u := by
    intro nc tr wk u hu
    cases hu.builds with
    | single rf tf lf hb => exact ⟨rf, tf, lf, hb⟩
  obtain ⟨rf, tf, lf, hb⟩ := hbuild h
  obtain ⟨rf', tf', lf', hb'⟩ := hbuild h'
  obtain ⟨root, N1, rest, rest', N0, N0', a1, a2, a3, a4, a5, B, B', a6, a7, a8⟩ :=
    Idx.build_first_same h.wf hi1 hi2 hi3 rf tf lf rf' tf' lf' trees trees' h.fits h'.fits hb hb' hne hne'
  have hN := B.nNodes
  have hN' := B'.nNodes
  obtain ⟨fa, oa, ra⟩ := H root (by rw [a1]; simp)
    (fun r' hr' => by
      rw [a1] at hr'
      rcases List.mem_cons.1 hr' with rfl | hr'
      · exact le_refl _
      · exact (a3 r' hr').le)
  obtain ⟨fb, ob, rb⟩ := H' root (by rw [a2]; simp)
    (fun r' hr' => by
      rw [a2] at hr'
      rcases List.mem_cons.1 hr' with rfl | hr'
      · exact le_refl _
      · exact (a4 r' hr').le)
  have hroot : slotCount adds ≤ root := (B.roots_lt root (by rw [a1]; simp)).1
  obtain ⟨hm, -⟩ := B.mem_eq w (by omega)
  obtain ⟨hm', -⟩ := B'.mem_eq w' (by omega)
  have hget : (s'.mem w).get = s'.alloc.data := by rw [hm]; rfl
  have hget' : (s''.mem w').get = s''.alloc.data := by rw [hm']; rfl
  have hsame : ∀ x, x < N1 → getNode c.L (s'.mem w) x = .ok (x * c.L.nodeSize) ∧ getNode c.L (s''.mem w') x = .ok (x * c.L.nodeSize) ∧
      ∀ j, j < c.L.nodeSize → (s'.mem w).get (x * c.L.nodeSize + j) = (s''.mem w').get (x * c.L.nodeSize + j) := by
    intro x hx
    refine ⟨B.getNode w (by omega), B'.getNode w' (by omega), fun j hj => ?_⟩
    rw [hget, hget']
    exact a8 _ (Idx.node_lt hx hj)
  have hlow : ∀ x, x < slotCount adds → ndAt c.L (s'.mem w).get x ≤ 1 := by
    intro x hx
    rw [hget]
    cases hm : lastAdded adds x with
    | none =>
      have : ndAt c.L s'.alloc.data x = 0 := by
        refine readLE_zero _ _ _ fun j hj => ?_
        have h3 := h.wf.layout.three_le
        exact B.gaps x hx hm j (by omega) (Or.inl (by omega))
      omega
    | some u => exact (B.items x u hm).nDesc.le
  have hagree : Search.Agree c (s'.mem w) (s''.mem w') s'.nItems s''.nItems (fun x => x < N1) := by
    refine ⟨fun x hx => ⟨_, hsame x hx⟩, ?_, ?_, ?_⟩
    · intro x hx a ha h1
      rw [B.nItems, B'.nItems]
    · intro x hx a ha hk hno y hy
      rw [(hsame x hx).1] at ha
      cases ha
      by_cases hge : slotCount adds ≤ x
      · have := B.downward x hge (by omega)
        rw [← hget] at this
        have := this.1 hk y hy
        omega
      · have hl : ndAt c.L (s'.mem w).get x ≤ 1 := hlow x (by omega)
        rw [B.nItems] at hno
        have h0 : ndAt c.L (s'.mem w).get x = 0 := by
          by_contra hne
          exact hno ⟨by show ndAt c.L (s'.mem w).get x = 1; omega, by omega⟩
        obtain ⟨k', hk', _⟩ := List.mem_map.1 hy
        have hk' := List.mem_range.1 hk'
        have h0 : Node.nDesc c.L (s'.mem w).get (x * c.L.nodeSize) = 0 := h0
        omega
    · intro x hx a ha hk
      rw [(hsame x hx).1] at ha
      cases ha
      by_cases hge : slotCount adds ≤ x
      · have := B.downward x hge (by omega)
        rw [← hget] at this
        obtain ⟨d0, d1⟩ := this.2.1 hk
        exact ⟨lt_trans d0 hx, lt_trans d1 hx⟩
      · have hl : ndAt c.L (s'.mem w).get x ≤ 1 := hlow x (by omega)
        have hk : c.L.K < ndAt c.L (s'.mem w).get x := hk
        have := h.wf.layout.K_ge
        omega
  have hrun2 := Search.run_congr h.wf hagree (roots := [root]) (by simpa using a5) fb query k budget ctx'
  obtain ⟨ts, S, -⟩ := h.searchable_inner hs w
  obtain ⟨t, ht, et⟩ := List.mem_map.1 (show root ∈ ts.map Tree.root by rw [S.roots, a1]; simp)
  have S1 := Search.Searchable.one S ht
  rw [et] at S1
  exact Search.run_same h.wf hlaw S1 hq ra (hrun2.trans rb)

/-- **C88**: one worker builds the same items with the same generator, once with `trees` trees and once with `trees'`.  For every query
with finite margins, every `numReturn`, budget and context, the second index gives the answer of the first when it is asked with the same
budget (the default budget of the first being `numReturn * len(roots)`).  (Given that inner nodes survive being written.) -/
theorem Session.C88_trees_change_nothing {numCPU' : Nat} {trees' workers' : Int} {s'' : Idx c}
    (h : Session c numCPU .single adds trees workers s s') (h' : Session c numCPU' .single adds trees' workers' s s'')
    (hs : SplitsKept c numCPU .single (slotCount adds) trees workers)
    (hs' : SplitsKept c numCPU' .single (slotCount adds) trees' workers') (hk : c.N.KeyLaws) (hM : MinKeys c) (hne : s'.roots ≠ [])
    (hne' : s''.roots ≠ []) {w w' : World} {query : List c.N.V} (hq : GoodQuery c query) (hfin : FiniteBelow s' w query)
    (hfin' : FiniteBelow s'' w' query) {k b b' : Int}
    {fuel fuel' : Nat} (h0 : 0 ≤ (if b = -1 then k * s'.roots.length else b))
    (hbb : (if b' = -1 then k * (s''.roots.length : Int) else b') = (if b = -1 then k * (s'.roots.length : Int) else b))
    {ctx ctx' o o' : Ctx c} {ids ids' : List Nat}
    {ds ds' : List c.N.V} (hrun : s'.getNnsByVector fuel w query k b ctx = .ok (ids, ds, o))
    (hrun' : s''.getNnsByVector fuel' w' query k b' ctx' = .ok (ids', ds', o')) : ids' = ids ∧ ds' = ds := by
  refine h.same_of_first h' hs hk.lawful hne hne' hq (w := w) (w' := w') (ctx' := ctx') (budget := if b = -1 then k * (s'.roots.length : Int) else b)
    (fun r hr hm => h.C87_first_tree_suffices hs hk hM w hq hfin hr hm h0 hrun) fun r hr hm => ?_
  rw [← hbb]
  exact h'.C87_first_tree_suffices hs' hk hM w' hq hfin' hr hm (by rw [hbb]; exact h0) hrun'

end
/-! ### concrete case -/

theorem made_pair {c : Cfg} {r : c.R.σ} {adds : List (Nat × List c.N.V)} {trees trees' : Int} {s' s'' : Idx c}
    (hc : c.WF) (hl : LegalAdds c adds) (hf : c.L.Fits (treeRoom 1 .single (slotCount adds) trees 1))
    (hf' : c.L.Fits (treeRoom 1 .single (slotCount adds) trees' 1))
    (h : made c r adds trees = .ok s') (h' : made c r adds trees' = .ok s'') :
    ∃ s, Session c 1 .single adds trees 1 s s' ∧ Session c 1 .single adds trees' 1 s s'' := by
  unfold made at h h'
  cases ha : (Idx.new c r 0).addAll adds with
  | error e => rw [ha] at h; cases h
  | ok s =>
    rw [ha] at h h'
    exact ⟨s, ⟨hc, hl, ⟨r, 0, ha⟩, hf, .single _ _ _ h⟩, ⟨hc, hl, ⟨r, 0, ha⟩, hf', .single _ _ _ h'⟩⟩

/-- The margins at the inner nodes are finite, the roots are `roots`, and the answers for one neighbour with the given budgets. -/
def budgets {c : Cfg} (q : List c.N.V) (roots : List Nat) (answers : List (Int × Nat)) (s' : Idx c) : Bool :=
  decide (s'.roots = roots) && ((List.range' s'.nItems (s'.nNodes - s'.nItems)).all fun i =>
      !(decide (c.L.K < ndAt c.L s'.alloc.data i)) ||
      okAnd (fun y => c.N.lt y c.N.inf && c.N.lt (c.N.neg y) c.N.inf) (c.D.margin s'.alloc.data (i * c.L.nodeSize) q)) &&
    answers.all fun a => decide (answerIds (Search.run c 100 s'.bmem s'.nItems s'.roots q 1 a.1 s'.createContext) = some [a.2])

theorem budgets_finite {c : Cfg} {numCPU : Nat} {pol : BuildPolicy} {adds : List (Nat × List c.N.V)} {trees workers : Int} {s s' : Idx c}
    (h : Session c numCPU pol adds trees workers s s') (h0 : 0 < s'.nNodes) {q : List c.N.V} {roots : List Nat} {answers : List (Int × Nat)}
    (hp : budgets q roots answers s' = true) : s'.roots = roots ∧ (∀ w, FiniteMargins s' w q) ∧
      ∀ a ∈ answers, ∀ w, ∃ ds o, s'.getNnsByVector 100 w q 1 a.1 s'.createContext = .ok ([a.2], ds, o) := by
  unfold budgets at hp
  rw [Bool.and_eq_true, Bool.and_eq_true] at hp
  obtain ⟨⟨h1, h2⟩, h3⟩ := hp
  obtain ⟨N0, B, _⟩ := h.built
  refine ⟨of_decide_eq_true h1, fun w i i1 i2 i3 => ?_, fun a ha w => ?_⟩
  · obtain ⟨hm, -⟩ := B.mem_eq w h0
    rw [hm] at i3 ⊢
    have := List.all_eq_true.1 h2 i (by rw [List.mem_range'_1]; omega)
    rw [Bool.or_eq_true] at this
    rcases this with h | h
    · have h : ndAt c.L s'.alloc.data i ≤ c.L.K := by simpa using h
      exact absurd (show c.L.K < ndAt c.L s'.alloc.data i from i3) (Nat.not_lt.2 h)
    · unfold okAnd at h
      split at h
      · next y hy =>
        rw [Bool.and_eq_true] at h
        exact ⟨y, hy, h⟩
      · cases h
  · obtain ⟨d1, o1, e1⟩ := answerIds_some (of_decide_eq_true (List.all_eq_true.1 h3 a ha))
    exact ⟨d1, o1, (B.search w h0 _ _ _ _ _).trans e1⟩

def manyTreesWith (add mul div : BitVec 32 → BitVec 32 → BitVec 32) : Bool :=
  okAnd (budgets (c := alt32With add mul div 16) eastVec [20, 22] [(-1, 0), (2, 0), (3, 1)]) (made (alt32With add mul div 16) false groupAdds 2) &&
  okAnd (budgets (c := alt32With add mul div 16) eastVec [20] [(-1, 0), (2, 0), (3, 1)]) (made (alt32With add mul div 16) false groupAdds 1)

theorem manyTrees_checked : manyTreesWith add32S mul32S div32S = true := by decide +kernel

/-- C86, C87 and C88: three items, with one tree and with two.  Asked for the one item nearest to the vector of item 1, both indexes answer
with item 0 for a budget of 2, and with item 1 for a budget of 3, the number of items. -/
theorem C86_C88_case : ∃ s s' s'', Session (alt32 16) 1 .single groupAdds 2 1 s s' ∧ Session (alt32 16) 1 .single groupAdds 1 1 s s'' ∧
    SplitsKept (alt32 16) 1 .single (slotCount groupAdds) 2 1 ∧ SplitsKept (alt32 16) 1 .single (slotCount groupAdds) 1 1 ∧
    (alt32 16).N.KeyLaws ∧ MinKeys (alt32 16) ∧ GoodQuery (alt32 16) eastVec ∧ s'.roots = [20, 22] ∧ s''.roots = [20] ∧
    (addedIds groupAdds).length = 3 ∧ lastAdded groupAdds 1 = some eastVec ∧
    ∀ w, FiniteMargins s' w eastVec ∧ FiniteBelow s' w eastVec ∧ FiniteBelow s'' w eastVec ∧
      ∀ a ∈ [((-1 : Int), 0), (2, 0), (3, 1)],
      (∃ ds o, s'.getNnsByVector 100 w eastVec 1 a.1 s'.createContext = .ok ([a.2], ds, o)) ∧
      ∃ ds o, s''.getNnsByVector 100 w eastVec 1 a.1 s''.createContext = .ok ([a.2], ds, o) := by
  have key : manyTreesWith ieee32.add ieee32.mul ieee32.div = true := fast32 manyTreesWith manyTrees_checked
  unfold manyTreesWith at key
  rw [Bool.and_eq_true] at key
  obtain ⟨k1, k2⟩ := key
  have hok : ∀ {t : Int} {p : Idx (alt32 16) → Bool}, okAnd p (made (alt32 16) false groupAdds t) = true →
      ∃ u, made (alt32 16) false groupAdds t = .ok u ∧ p u = true := by
    intro t p h
    unfold okAnd at h
    split at h
    · next u hu => exact ⟨u, hu, h⟩
    · cases h
  obtain ⟨s', m1, p1⟩ := hok k1
  obtain ⟨s'', m2, p2⟩ := hok k2
  obtain ⟨s, h, h'⟩ := made_pair (alt32_wf (by decide)) (legalAdds_of (by decide +kernel)) (by decide +kernel) (by decide +kernel) m1 m2
  have hs := splitsKept_of_length h.wf (by decide) h.fits
  have hs' := splitsKept_of_length h'.wf (by decide) h'.fits
  have hpos : ∀ {t : Int} {u : Idx (alt32 16)}, Session (alt32 16) 1 .single groupAdds t 1 s u → 0 < u.nNodes := by
    intro t u hu
    obtain ⟨N0, B, _⟩ := hu.built
    have h1 := B.n_le_nNodes
    have h2 : 0 < slotCount groupAdds := by decide +kernel
    exact lt_of_lt_of_le h2 h1
  obtain ⟨a1, a2, a3⟩ := budgets_finite h (hpos h) p1
  obtain ⟨b1, b2, b3⟩ := budgets_finite h' (hpos h') p2
  exact ⟨s, s', s'', h, h', hs, hs', ieee32_keyLaws, angular_minKeys, ⟨rfl, angular_marginOk rfl (by decide)⟩, a1, b1, by decide +kernel,
    by decide +kernel, fun w => ⟨a2 w, h.finiteBelow hs (a2 w), h'.finiteBelow hs' (b2 w), fun a ha => ⟨a3 a ha w, b3 a ha w⟩⟩⟩

/-- The hypotheses of the theorems about loaded indexes: the index with two trees in a file, loaded; it has an answer for the budget 3. -/
example : ∃ s s', Session (alt32 16) 1 .single groupAdds 2 1 s s' ∧ 2 ≤ slotCount groupAdds ∧ s'.roots ≠ [] ∧
    (alt32 16).L.CountKept (slotCount groupAdds) ∧ SplitsKept (alt32 16) 1 .single (slotCount groupAdds) 2 1 ∧
    (alt32 16).L.CopiesKept (slotCount groupAdds) ∧ (alt32 16).N.KeyLaws ∧ MinKeys (alt32 16) ∧ GoodQuery (alt32 16) eastVec ∧
    ∃ w t, FileOf s' w "x" ∧ s'.load .mmap w "x" = .ok (.nil, t) ∧ FiniteBelow t w eastVec ∧
      ∃ fuel ctx x, t.getNnsByVector fuel w eastVec 1 3 ctx = .ok x := by
  obtain ⟨s, s', s'', h, h', hs, hs', hN, hM, hq, hroots, h1, h2, h3, hw⟩ := C86_C88_case
  have hr : s'.roots ≠ [] := by rw [hroots]; simp
  have hk : (alt32 16).L.CountKept (slotCount groupAdds) := by unfold Layout.CountKept; decide +kernel
  have hck : (alt32 16).L.CopiesKept (slotCount groupAdds) := Or.inl (by decide +kernel)
  have hn : 2 ≤ slotCount groupAdds := by decide +kernel
  have hf := h.fileOf.2 (oneFile_read "x" _)
  obtain ⟨t, l1, _⟩ := h.reload hn hr hk hf .mmap s'
  obtain ⟨F, hF⟩ := C20_answers_loaded_partial h ieee32_lawful hn hr hk hs hck hf l1
  obtain ⟨x, e'⟩ := hF _ hq 1 3 ⟨List.replicate (t.roots.length * slotCount groupAdds) 0, []⟩ F le_rfl
    (by simp only [List.length_replicate]; exact le_rfl)
  exact ⟨s, s', h, hn, hr, hk, hs, hck, hN, hM, hq, _, t, hf, l1, h.finiteBelow_loaded hn hr hk hs hck hf l1 (hw (oneFile "y" [])).1, _, _, _, e'⟩

end Annoy
