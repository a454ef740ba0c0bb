import Verif.Proof.DepthOrder
import Verif.Props.SearchCost
/-!
# A search is a depth-first walk (C114)
-/
namespace Annoy

/-- The memory determines the order of the leaves. -/
theorem Holds.order_unique {L : Layout} {sz : Nat} (hL : L.Ok sz) {b : Bytes} {n : Nat} {N : Num} {m : Nat → N.V} {t t' : Tree}
    (h : Holds L b n t) (h' : Holds L b n t') (hr : t.root = t'.root) : ∀ d, t.order N m d = t'.order N m d := by
  classical
  have hK := hL.K_ge
  have leaf : ∀ {t : Tree}, Holds L b n t → (∃ i l r, t = .split i l r) ∨
      (ndAt L b t.root ≤ L.K ∧ ∀ d, t.order N m d = [if IsItem L b n t.root then [t.root] else childrenAt L b t.root]) := by
    intro t h
    cases t with
    | split i l r => exact Or.inl ⟨i, l, r, rfl⟩
    | item i =>
      have h : IsItem L b n i := h
      refine Or.inr ⟨by have := h.2; simp only [Tree.root]; omega, fun d => ?_⟩
      show [[i]] = [if IsItem L b n i then [i] else childrenAt L b i]
      rw [if_pos h]
    | hole i =>
      have h : ndAt L b i = 0 := h
      refine Or.inr ⟨by simp only [Tree.root]; omega, fun d => ?_⟩
      have h1 : ¬ IsItem L b n i := fun hi => by have := hi.2; omega
      have h2 : childrenAt L b i = [] := by
        unfold childrenAt Node.getChildren
        have h3 : Node.nDesc L b (i * L.nodeSize) = 0 := h
        rw [h3]
        rfl
      simp only [Tree.order, Tree.root, Tree.items, if_neg h1, h2]
    | bucket i ids =>
      obtain ⟨h1, h2, h3⟩ := h
      refine Or.inr ⟨h2, fun d => ?_⟩
      simp only [Tree.order, Tree.root, Tree.items, if_neg h1, h3]
  induction t generalizing t' with
  | split i l r ihl ihr =>
    rcases leaf h' with ⟨j, l', r', rfl⟩ | ⟨h1, h2⟩
    · obtain rfl : i = j := hr
      obtain ⟨-, a1, a2, a3, a4⟩ := h
      obtain ⟨-, b1, b2, b3, b4⟩ := h'
      intro d
      have e1 : l.root = l'.root := a1.symm.trans b1
      have e2 : r.root = r'.root := a2.symm.trans b2
      simp only [Tree.order]
      rw [ihl a3 b3 e1, ihr a4 b4 e2, e1, e2]
    · rw [← hr] at h1
      have : L.K < ndAt L b i := h.1
      simp only [Tree.root] at h1
      omega
  | _ =>
    rcases leaf h with ⟨i, l, r, e⟩ | ⟨h1, h2⟩
    · cases e
    · rcases leaf h' with ⟨i, l, r, rfl⟩ | ⟨h3, h4⟩
      · rw [hr] at h1
        have : L.K < ndAt L b i := h'.1
        simp only [Tree.root] at h1
        omega
      · intro d
        rw [h2, h4, hr]

/-- The trees of an index in ascending order of their numbers. -/
def InNumberOrder (L : Layout) (b : Bytes) (n : Nat) (roots : List Nat) (ts : List Tree) : Prop :=
  (ts.map Tree.root).Pairwise (· < ·) ∧ (ts.map Tree.root).Perm roots ∧ ∀ t ∈ ts, Holds L b n t

theorem exists_sorted (ts : List Tree) (h : (ts.map Tree.root).Nodup) : ∃ us : List Tree, us.Perm ts ∧ (us.map Tree.root).Pairwise (· < ·) := by
  induction ts with
  | nil => exact ⟨[], List.Perm.refl _, List.Pairwise.nil⟩
  | cons t ts ih =>
    rw [List.map_cons, List.nodup_cons] at h
    obtain ⟨us, p, hs⟩ := ih h.2
    have hne : ∀ u ∈ us, u.root ≠ t.root := fun u hu e => h.1 (by rw [← e]; exact List.mem_map_of_mem (p.subset hu))
    have hf : (us.filter (fun u => decide (u.root < t.root)) ++ us.filter (fun u => !decide (u.root < t.root))).Perm us :=
      List.filter_append_perm _ _
    rw [List.pairwise_map] at hs
    refine ⟨us.filter (fun u => decide (u.root < t.root)) ++ t :: us.filter (fun u => !decide (u.root < t.root)),
      List.perm_middle.trans (List.Perm.cons _ (hf.trans p)), ?_⟩
    rw [List.pairwise_map, List.pairwise_append, List.pairwise_cons]
    refine ⟨hs.filter _, ⟨?_, hs.filter _⟩, ?_⟩
    · intro u hu
      obtain ⟨h1, h2⟩ := List.mem_filter.1 hu
      have := hne u h1
      simp only [Bool.not_eq_eq_eq_not, Bool.not_true, decide_eq_false_iff_not] at h2
      omega
    · intro a ha b hb
      have h1 := (List.mem_filter.1 ha).2
      rw [decide_eq_true_eq] at h1
      rcases List.mem_cons.1 hb with rfl | hb
      · exact h1
      · have h2 := (List.mem_filter.1 hb).2
        simp only [Bool.not_eq_eq_eq_not, Bool.not_true, decide_eq_false_iff_not] at h2
        omega

namespace Search
variable {c : Cfg} {mem : Block} {n : Nat} {roots : List Nat} {m : Nat → Option (List c.N.V)} {ts : List Tree}

/-- What a search collects, as a function of the trees. -/
theorem collect_depth_first (hc : c.WF) (hk : c.N.KeyLaws) (hM : MinKeys c) (S : Searchable c mem n roots m ts) (hd : ∀ t ∈ ts, t.Descends)
    (ha : ∀ t ∈ ts, t.nodes.Nodup) (hr : roots.Nodup) {query : List c.N.V} (hq : GoodQuery c query)
    (ho : ∀ t ∈ ts, ∀ i ∈ t.splitNodes, c.N.Ordinary (marginOf c mem query i)) {budget : Int} {fuel : Nat} {col : List Nat}
    (h : collect mem n query budget fuel (initQueue c roots) [] = .ok col) {us : List Tree} (hu : InNumberOrder c.L mem.get n roots us) :
    col = takeUpTo budget (us.flatMap (Tree.order c.N (marginOf c mem query) c.N.inf)) := by
  obtain ⟨vs, G, r1, -, r3, r4⟩ := collect_walk_visits hc hk hM S (x := marginOf c mem query)
    (fun t _ => marginsAt_marginOf hq.margin t) ho (budget := budget)
  rw [collect_det h (r1 _ (Nat.lt_succ_self _))]
  obtain ⟨us', p, hs⟩ := exists_sorted ts (by rw [S.roots]; exact hr)
  have pF : (ts.map fun t => (c.N.inf, t)).Perm (us'.map fun t => (c.N.inf, t)) := p.symm.map _
  have hin : ∀ {a}, a ∈ (us'.map fun t => (c.N.inf, t)) → ∃ t ∈ ts, a = (c.N.inf, t) := by
    intro a h
    obtain ⟨t, ht, rfl⟩ := List.mem_map.1 h
    exact ⟨t, p.subset ht, rfl⟩
  obtain ⟨D, hD⟩ : ∃ D, ∀ t ∈ ts, t.depth ≤ D := by
    clear * - 
    induction ts with
    | nil => exact ⟨0, fun t ht => by cases ht⟩
    | cons t ts ih =>
      obtain ⟨D, hD⟩ := ih
      refine ⟨max D t.depth, fun u hu => ?_⟩
      rcases List.mem_cons.1 hu with rfl | hu
      · exact le_max_right _ _
      · exact (hD u hu).trans (le_max_left _ _)
  obtain ⟨rest, o1, o2⟩ := (r3.perm pF.symm).order hk D (by
      intro a h
      obtain ⟨t, ht, rfl⟩ := hin h
      exact ⟨hk.inf_ordinary, ho t ht⟩) (by
      intro a h
      obtain ⟨t, ht, rfl⟩ := hin h
      exact hd t ht) (by
      intro a h
      obtain ⟨t, ht, rfl⟩ := hin h
      exact ⟨Tree.apart_of_nodup (ha t ht), hD t ht⟩) (by
      unfold InOrder
      rw [List.pairwise_map]
      rw [List.pairwise_map] at hs
      exact hs.imp fun h => Or.inr ⟨hk.inf_ordinary, h⟩)
  rw [gathered_eq_takeUpTo o2 r4, ← o1, List.flatMap_map]
  congr 1
  -- the trees are those of the memory
  obtain ⟨u1, u2, u3⟩ := hu
  have hmap : us'.map Tree.root = us.map Tree.root := by
    refine List.Perm.eq_of_pairwise (le := (· < ·)) ?_ hs u1 ((p.map _).trans (by rw [S.roots]; exact u2.symm))
    intro a b _ _ h1 h2
    omega
  have hall : ∀ t ∈ us', Holds c.L mem.get n t := fun t ht => (S.walk t (p.subset ht)).holds
  clear * - hmap hall u3 hc
  induction us' generalizing us with
  | nil =>
    cases us with
    | nil => rfl
    | cons u us => simp at hmap
  | cons t us' ih =>
    cases us with
    | nil => simp at hmap
    | cons u us =>
      rw [List.map_cons, List.map_cons, List.cons.injEq] at hmap
      rw [List.flatMap_cons, List.flatMap_cons,
        ih (fun u hu => u3 u (List.mem_cons_of_mem _ hu)) hmap.2 (fun u hu => hall u (List.mem_cons_of_mem _ hu))]
      congr 1
      exact Holds.order_unique hc.layout (hall t List.mem_cons_self) (u3 u List.mem_cons_self) hmap.1 _

/-- What a search answers, as a function of the trees. -/
theorem answer_depth_first (hc : c.WF) (hk : c.N.KeyLaws) (hM : MinKeys c) (S : Searchable c mem n roots m ts) (hd : ∀ t ∈ ts, t.Descends)
    (ha : ∀ t ∈ ts, t.nodes.Nodup) (hr : roots.Nodup) {query : List c.N.V} (hq : GoodQuery c query)
    (ho : ∀ t ∈ ts, ∀ i ∈ t.splitNodes, c.N.Ordinary (marginOf c mem query i)) {k b : Int} {fuel : Nat}
    {ctx ctx' : Ctx c} {ids : List Nat} {ds : List c.N.V} (h : run c fuel mem n roots query k b ctx = .ok (ids, ds, ctx'))
    {us : List Tree} (hu : InNumberOrder c.L mem.get n roots us) :
    TopK c.N c.D.normalizedDistance (itemDist c m query) (itemsAmong m n (takeUpTo (if b = -1 then k * roots.length else b)
      (us.flatMap (Tree.order c.N (marginOf c mem query) c.N.inf)))) k.toNat ids ds := by
  obtain ⟨done, rest, -, -, d3, d4⟩ := answer hc hk.lawful S hq h
  rw [collect_depth_first hc hk hM S hd ha hr hq ho d3 hu] at d4
  exact d4

end Search

/-! ### only the first tree counts -/

theorem takeUpTo_append : ∀ (xs ys : List (List Nat)) (budget : Int),
    takeUpTo budget (xs ++ ys) = takeUpTo budget xs ∨ ∀ i ∈ xs.flatten, i ∈ takeUpTo budget (xs ++ ys) ∧ i ∈ takeUpTo budget xs := by
  intro xs
  induction xs with
  | nil => intro ys budget; right; simp
  | cons x xs ih =>
    intro ys budget
    rw [List.cons_append]
    unfold takeUpTo
    by_cases h : 0 < budget
    · rw [if_pos h, if_pos h]
      rcases ih ys (budget - x.length) with h1 | h1
      · left; rw [h1]
      · right
        intro i hi
        rw [List.flatten_cons, List.mem_append] at hi
        rcases hi with hi | hi
        · exact ⟨List.mem_append_left _ hi, List.mem_append_left _ hi⟩
        · exact ⟨List.mem_append_right _ (h1 i hi).1, List.mem_append_right _ (h1 i hi).2⟩
    · rw [if_neg h, if_neg h]
      exact Or.inl rfl

theorem Tree.order_items {N : Num} {m : Nat → N.V} (t : Tree) : ∀ d, (t.order N m d).flatten.Perm t.items := by
  induction t with
  | split i l r ihl ihr =>
    intro d
    simp only [Tree.order, Tree.items]
    split
    · rw [List.flatten_append]
      exact List.perm_append_comm.trans ((ihl _).append (ihr _))
    · rw [List.flatten_append]
      exact (ihl _).append (ihr _)
  | _ => intro d; simp [Tree.order]

/-- What a search finds among the items does not depend on the trees behind the first. -/
theorem found_first {N : Num} {mg : Nat → N.V} {V : Type} {m : Nat → Option (List V)} {n : Nat} {t : Tree} (hC : ∀ i, (m i).isSome → i ∈ t.items)
    (rest : List (List Nat)) (budget : Int) (d : N.V) :
    itemsAmong m n (takeUpTo budget (t.order N mg d ++ rest)) = itemsAmong m n (takeUpTo budget (t.order N mg d)) := by
  rcases takeUpTo_append (t.order N mg d) rest budget with h | h
  · rw [h]
  · unfold itemsAmong
    apply List.filter_congr
    intro i _
    rw [decide_eq_decide]
    constructor
    · rintro ⟨-, hi⟩
      exact ⟨(h i ((t.order_items d).symm.subset (hC i hi))).2, hi⟩
    · rintro ⟨-, hi⟩
      exact ⟨(h i ((t.order_items d).symm.subset (hC i hi))).1, hi⟩

namespace Session
variable {c : Cfg} {numCPU : Nat} {pol : BuildPolicy} {adds : List (Nat × List c.N.V)} {trees workers : Int} {s s' : Idx c}

/-- **C114**, given that inner nodes survive being written and that no margin is NaN: what a search answers does not need a priority
queue.  Go through the trees in ascending order of their numbers, through each depth first, the subtree with the smaller key first, until
the budget is used up: the answer are the best of the items found on the way. -/
theorem C114_depth_first (h : Session c numCPU pol adds trees workers s s') (hs : SplitsKept c numCPU pol (slotCount adds) trees workers)
    (hk : c.N.KeyLaws) (hM : MinKeys c) (w : World) {query : List c.N.V} (hq : GoodQuery c query) (hord : OrdinaryMargins s' w query) :
    ∃ us, InNumberOrder c.L (s'.mem w).get s'.nItems s'.roots us ∧
      ∀ {k b : Int} {fuel : Nat} {ctx ctx' : Ctx c} {ids : List Nat} {ds : List c.N.V},
        s'.getNnsByVector fuel w query k b ctx = .ok (ids, ds, ctx') →
        ∀ found, found = itemsAmong (lastAdded adds) s'.nItems (takeUpTo (if b = -1 then k * s'.roots.length else b)
          (us.flatMap (Tree.order c.N (marginOf c (s'.mem w) query) c.N.inf))) →
        TopK c.N c.D.normalizedDistance (itemDist c (lastAdded adds) query) found k.toNat ids ds ∧
        ((∀ i ∈ found, c.N.Ordinary (itemDist c (lastAdded adds) query i)) →
          ids = nearest c.N (itemDist c (lastAdded adds) query) found k.toNat) := by
  obtain ⟨ts, S, -, -, -, hroot, -⟩ := h.searchable_inner hs w
  have hn := h.roots_nodup hs
  obtain ⟨us, p, hu⟩ := exists_sorted ts (by rw [S.roots]; exact hn)
  have hU : InNumberOrder c.L (s'.mem w).get s'.nItems s'.roots us :=
    ⟨hu, by rw [← S.roots]; exact p.map _, fun t ht => (S.walk t (p.subset ht)).holds⟩
  refine ⟨us, hU, ?_⟩
  rintro k b fuel ctx ctx' ids ds hrun found rfl
  have d4 := Search.answer_depth_first h.wf hk hM S (fun t ht => (hroot t ht).descends)
    (fun t ht => (hroot t ht).nodes_different h.wf.layout (liveOf_nodup _ _) (fun i hi => by
      obtain ⟨N0, B, _⟩ := h.built
      rw [B.nItems]; exact (mem_liveOf.1 hi).1)) hn hq (hord.at hq S) hrun hU
  exact ⟨d4, fun ho => (d4.unique hk.lawful (nearest_topK hk.lawful _ (itemsAmong_nodup _ _ _) ho k.toNat) (List.Perm.refl _) ho).1⟩

/-- **C114** for loaded indexes. -/
theorem C114_depth_first_loaded (h : Session c numCPU pol adds trees workers s s') (hs : SplitsKept c numCPU pol (slotCount adds) trees workers)
    (hn : 2 ≤ slotCount adds) (hroots : s'.roots ≠ []) (hck : c.L.CountKept (slotCount adds))
    (hcp : c.L.CopiesKept (slotCount adds)) (hk : c.N.KeyLaws) (hM : MinKeys c)
    {w : World} {path : String} (hf : FileOf s' w path) {bk : Backend} {u t : Idx c} (hl : u.load bk w path = .ok (.nil, t))
    {query : List c.N.V} (hq : GoodQuery c query) (hord : OrdinaryMargins t w query) :
    ∃ us, InNumberOrder c.L (t.mem w).get t.nItems t.roots us ∧
      ∀ {k b : Int} {fuel : Nat} {ctx ctx' : Ctx c} {ids : List Nat} {ds : List c.N.V},
        t.getNnsByVector fuel w query k b ctx = .ok (ids, ds, ctx') →
        ∀ found, found = itemsAmong (lastAdded adds) t.nItems (takeUpTo (if b = -1 then k * t.roots.length else b)
          (us.flatMap (Tree.order c.N (marginOf c (t.mem w) query) c.N.inf))) →
        TopK c.N c.D.normalizedDistance (itemDist c (lastAdded adds) query) found k.toNat ids ds ∧
        ((∀ i ∈ found, c.N.Ordinary (itemDist c (lastAdded adds) query i)) →
          ids = nearest c.N (itemDist c (lastAdded adds) query) found k.toNat) := by
  obtain ⟨h1, e, ts, S, C, U, Z⟩ := h.reload_complete hn hroots hck hs hcp hf hl
  have hR : t.roots.Nodup := by
    obtain ⟨t', h2, N0, B, hN, R⟩ := h.reload hn hroots hck hf bk u
    rw [hl] at h2
    cases h2
    exact R.roots_nodup
  obtain ⟨us, p, hu⟩ := exists_sorted ts (by rw [S.roots]; exact hR)
  have hU : InNumberOrder c.L (t.mem w).get t.nItems t.roots us :=
    ⟨hu, by rw [← S.roots]; exact p.map _, fun t ht => (S.walk t (p.subset ht)).holds⟩
  refine ⟨us, hU, ?_⟩
  rintro k b fuel ctx ctx' ids ds hrun found rfl
  have d4 := Search.answer_depth_first h.wf hk hM S (fun v hv => (Z v hv).descends)
    (fun v hv => (Z v hv).nodes_different h.wf.layout (liveOf_nodup _ _) (fun i hi => (mem_liveOf.1 hi).1)) hR hq (hord.at hq S) hrun hU
  exact ⟨d4, fun ho => (d4.unique hk.lawful (nearest_topK hk.lawful _ (itemsAmong_nodup _ _ _) ho k.toNat) (List.Perm.refl _) ho).1⟩

/-- **C114**, one tree: it is enough to go through the tree with the smallest number.  (C87 without the condition that margins are
finite.) -/
theorem C114_first_tree (h : Session c numCPU pol adds trees workers s s') (hs : SplitsKept c numCPU pol (slotCount adds) trees workers)
    (hk : c.N.KeyLaws) (hM : MinKeys c) (w : World) {query : List c.N.V} (hq : GoodQuery c query) (hord : OrdinaryMargins s' w query)
    (hroots : s'.roots ≠ []) :
    ∃ v, Holds c.L (s'.mem w).get s'.nItems v ∧ v.root ∈ s'.roots ∧ (∀ r ∈ s'.roots, v.root ≤ r) ∧ (∀ i ∈ addedIds adds, i ∈ v.items) ∧
      ∀ {k b : Int} {fuel : Nat} {ctx ctx' : Ctx c} {ids : List Nat} {ds : List c.N.V},
        s'.getNnsByVector fuel w query k b ctx = .ok (ids, ds, ctx') →
        ∀ found, found = itemsAmong (lastAdded adds) s'.nItems (takeUpTo (if b = -1 then k * s'.roots.length else b)
          (v.order c.N (marginOf c (s'.mem w) query) c.N.inf)) →
        TopK c.N c.D.normalizedDistance (itemDist c (lastAdded adds) query) found k.toNat ids ds ∧
        ((∀ i ∈ found, c.N.Ordinary (itemDist c (lastAdded adds) query i)) →
          ids = nearest c.N (itemDist c (lastAdded adds) query) found k.toNat) := by
  obtain ⟨ts, S, C, -⟩ := h.searchable_inner hs w
  obtain ⟨us, ⟨u1, u2, u3⟩, H⟩ := h.C114_depth_first hs hk hM w hq hord
  cases us with
  | nil => exact absurd u2.symm.eq_nil hroots
  | cons v us =>
    rw [List.map_cons, List.pairwise_cons] at u1
    have hmin : ∀ r ∈ s'.roots, v.root ≤ r := by
      intro r hr
      rcases List.mem_cons.1 (u2.symm.subset hr) with rfl | hr
      · exact le_refl _
      · exact (u1.1 r hr).le
    have hmem : v.root ∈ s'.roots := u2.subset (by simp)
    have hC : ∀ i, (lastAdded adds i).isSome → i ∈ v.items := by
      intro i hi
      have hv := hmem
      rw [← S.roots] at hv
      obtain ⟨x, hx, ex⟩ := List.mem_map.1 hv
      have h1 := Holds.order_unique (N := c.N) (m := marginOf c (s'.mem w) query) h.wf.layout (S.walk x hx).holds (u3 v (by simp)) ex c.N.inf
      have h2 := (v.order_items (N := c.N) (m := marginOf c (s'.mem w) query) c.N.inf)
      rw [← h1] at h2
      exact h2.subset ((x.order_items c.N.inf).symm.subset (C x hx i hi))
    refine ⟨v, u3 v (by simp), hmem, hmin, fun i hi => hC i (mem_addedIds.1 hi), ?_⟩
    rintro k b fuel ctx ctx' ids ds hrun found rfl
    refine H hrun _ ?_
    rw [List.flatMap_cons, found_first hC]

/-- **C114**, one tree, for loaded indexes. -/
theorem C114_first_tree_loaded (h : Session c numCPU pol adds trees workers s s') (hs : SplitsKept c numCPU pol (slotCount adds) trees workers)
    (hn : 2 ≤ slotCount adds) (hroots : s'.roots ≠ []) (hck : c.L.CountKept (slotCount adds))
    (hcp : c.L.CopiesKept (slotCount adds)) (hk : c.N.KeyLaws) (hM : MinKeys c)
    {w : World} {path : String} (hf : FileOf s' w path) {bk : Backend} {u t : Idx c} (hl : u.load bk w path = .ok (.nil, t))
    {query : List c.N.V} (hq : GoodQuery c query) (hord : OrdinaryMargins t w query) :
    ∃ v, Holds c.L (t.mem w).get t.nItems v ∧ v.root ∈ t.roots ∧ (∀ r ∈ t.roots, v.root ≤ r) ∧ (∀ i ∈ addedIds adds, i ∈ v.items) ∧
      ∀ {k b : Int} {fuel : Nat} {ctx ctx' : Ctx c} {ids : List Nat} {ds : List c.N.V},
        t.getNnsByVector fuel w query k b ctx = .ok (ids, ds, ctx') →
        ∀ found, found = itemsAmong (lastAdded adds) t.nItems (takeUpTo (if b = -1 then k * t.roots.length else b)
          (v.order c.N (marginOf c (t.mem w) query) c.N.inf)) →
        TopK c.N c.D.normalizedDistance (itemDist c (lastAdded adds) query) found k.toNat ids ds ∧
        ((∀ i ∈ found, c.N.Ordinary (itemDist c (lastAdded adds) query i)) →
          ids = nearest c.N (itemDist c (lastAdded adds) query) found k.toNat) := by
  obtain ⟨h1, e, ts, S, C, U, Z⟩ := h.reload_complete hn hroots hck hs hcp hf hl
  obtain ⟨us, ⟨u1, u2, u3⟩, H⟩ := h.C114_depth_first_loaded hs hn hroots hck hcp hk hM hf hl hq hord
  cases us with
  | nil => exact absurd u2.symm.eq_nil h1
  | cons v us =>
    rw [List.map_cons, List.pairwise_cons] at u1
    have hmin : ∀ r ∈ t.roots, v.root ≤ r := by
      intro r hr
      rcases List.mem_cons.1 (u2.symm.subset hr) with rfl | hr
      · exact le_refl _
      · exact (u1.1 r hr).le
    have hmem : v.root ∈ t.roots := u2.subset (by simp)
    have hC : ∀ i, (lastAdded adds i).isSome → i ∈ v.items := by
      intro i hi
      have hv := hmem
      rw [← S.roots] at hv
      obtain ⟨x, hx, ex⟩ := List.mem_map.1 hv
      have h1 := Holds.order_unique (N := c.N) (m := marginOf c (t.mem w) query) h.wf.layout (S.walk x hx).holds (u3 v (by simp)) ex c.N.inf
      have h2 := (v.order_items (N := c.N) (m := marginOf c (t.mem w) query) c.N.inf)
      rw [← h1] at h2
      exact h2.subset ((x.order_items c.N.inf).symm.subset (C x hx i hi))
    refine ⟨v, u3 v (by simp), hmem, hmin, fun i hi => hC i (mem_addedIds.1 hi), ?_⟩
    rintro k b fuel ctx ctx' ids ds hrun found rfl
    refine H hrun _ ?_
    rw [List.flatMap_cons, found_first hC]

end Session

/-! ### concrete cases -/

/-- The index of C64 and C71 with its two trees and its answer. -/
example : ∃ s s', Session (alt32 16) 1 .single groupAdds 2 1 s s' ∧ SplitsKept (alt32 16) 1 .single (slotCount groupAdds) 2 1 ∧
    (alt32 16).N.KeyLaws ∧ MinKeys (alt32 16) ∧ GoodQuery (alt32 16) eastVec ∧ s'.roots = [20, 22] ∧
    ∀ w, OrdinaryMargins s' w eastVec ∧ ∃ ds o, s'.getNnsByVector 100 w eastVec 1 (-1) s'.createContext = .ok ([0], ds, o) := by
  obtain ⟨s, s', h1, h2, h3, h4, h5, -, h6, -, h7⟩ := C64_C71_case
  exact ⟨s, s', h1, h2, h3, h4, h5, h6, fun w => ⟨(h7 w).2.1, (h7 w).2.2.2.2⟩⟩

/-- The same index loaded from its file. -/
example : ∃ s s', Session (alt32 16) 1 .single groupAdds 2 1 s s' ∧ 2 ≤ slotCount groupAdds ∧ s'.roots ≠ [] ∧
    (alt32 16).L.CountKept (slotCount groupAdds) ∧ SplitsKept (alt32 16) 1 .single (slotCount groupAdds) 2 1 ∧
    (alt32 16).L.CopiesKept (slotCount groupAdds) ∧ (alt32 16).N.KeyLaws ∧ MinKeys (alt32 16) ∧ GoodQuery (alt32 16) eastVec ∧
    ∃ w t, FileOf s' w "x" ∧ s'.load .mmap w "x" = .ok (.nil, t) ∧ OrdinaryMargins t w eastVec ∧
      ∃ fuel ctx x, t.getNnsByVector fuel w eastVec 1 3 ctx = .ok x := by
  obtain ⟨s, s', h, hs, hN, hM, hq, -, hroots, -, hw⟩ := C64_C71_case
  have hr : s'.roots ≠ [] := by rw [hroots]; simp
  have hk : (alt32 16).L.CountKept (slotCount groupAdds) := by unfold Layout.CountKept; decide +kernel
  have hck : (alt32 16).L.CopiesKept (slotCount groupAdds) := Or.inl (by decide +kernel)
  have hn : 2 ≤ slotCount groupAdds := by decide +kernel
  have hf := h.fileOf.2 (oneFile_read "x" _)
  obtain ⟨t, l1, _⟩ := h.reload hn hr hk hf .mmap s'
  obtain ⟨F, hF⟩ := C20_answers_loaded_partial h ieee32_lawful hn hr hk hs hck hf l1
  obtain ⟨x, e'⟩ := hF _ hq 1 3 ⟨List.replicate (t.roots.length * slotCount groupAdds) 0, []⟩ F le_rfl
    (by simp only [List.length_replicate]; exact le_rfl)
  exact ⟨s, s', h, hn, hr, hk, hs, hck, hN, hM, hq, _, t, hf, l1,
    (h.finiteBelow_loaded hn hr hk hs hck hf l1 (hw (oneFile "y" [])).1).ordinary hN, _, _, _, e'⟩

/-- A bucket is taken whole. -/
example : takeUpTo 2 [[4], [1, 2], [3]] = [4, 1, 2] ∧ takeUpTo 0 [[4]] = [] ∧ takeUpTo 9 [[4], [1, 2]] = [4, 1, 2] := by decide

end Annoy
