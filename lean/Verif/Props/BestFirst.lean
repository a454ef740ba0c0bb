import Verif.Proof.BestFirst
import Verif.Props.SearchOrder
import Verif.Props.Separation
/-!
# In which order a search goes through the trees (C64, C71)

`PriorityQueue` serves the smallest key, and the key of a child is the smaller of the key of its parent and its signed margin.  So
the side of a hyperplane where the query is *not* is served first, and completely; and the trees of an index are served one after
the other.  `BestFirst` (Spec/BestFirst.lean) is the order, as mathematics.
-/
namespace Annoy

theorem Tree.root_mem_nodes (t : Tree) : t.root ∈ t.nodes := by cases t <;> simp [Tree.nodes, Tree.root]

section
variable {N : Num} {x : Nat → N.V}

/-! ### a walk is determined by the budget -/

theorem entry_unique {V : Type} {F : List (V × Tree)} (h : (F.flatMap fun e => e.2.nodes).Nodup) {a b : V × Tree} (ha : a ∈ F)
    (hb : b ∈ F) (hr : a.2.root = b.2.root) : a = b := by
  induction F with
  | nil => cases ha
  | cons e F ih =>
    rw [List.flatMap_cons, List.nodup_append] at h
    obtain ⟨-, h2, h3⟩ := h
    rcases List.mem_cons.1 ha with rfl | ha' <;> rcases List.mem_cons.1 hb with rfl | hb'
    · rfl
    · exact absurd hr (h3 _ a.2.root_mem_nodes _ (List.mem_flatMap.2 ⟨b, hb', b.2.root_mem_nodes⟩))
    · exact absurd hr.symm (h3 _ b.2.root_mem_nodes _ (List.mem_flatMap.2 ⟨a, ha', a.2.root_mem_nodes⟩))
    · exact ih h2 ha' hb'

theorem opened_nodes (e : N.V × Tree) : ((opened N x e).flatMap fun e => e.2.nodes).Sublist e.2.nodes := by
  obtain ⟨d, t⟩ := e
  cases t <;> simp [opened, Tree.nodes]

/-- Two walks from the same trees with the same budget visit the same nodes, if no node occurs twice in the trees. -/
theorem BestFirst.unique (hk : N.KeyLaws) {F vs G : List (N.V × Tree)} (h : BestFirst N x F vs G) :
    ∀ {F₂ vs₂ G₂ : List (N.V × Tree)} {budget : Int}, BestFirst N x F₂ vs₂ G₂ → F.Perm F₂ → KeysOk N x F →
      (F.flatMap fun e => e.2.nodes).Nodup → StopsAt budget vs G → StopsAt budget vs₂ G₂ → vs = vs₂ := by
  induction h with
  | @stop F G q =>
    intro F₂ vs₂ G₂ budget h2 p hF hn s1 s2
    cases h2 with
    | stop _ => rfl
    | @visit _ e F' vs' _ q2 r t =>
      exfalso
      rcases s1.finished with h | h
      · subst h
        have := (q.symm.trans p).trans q2
        have := this.length_eq
        simp at this
      · have := s2.before [] e vs' rfl
        simp only [gathered, List.flatMap_nil, List.length_nil] at h this
        omega
  | @visit F e F' vs G q r t ih =>
    intro F₂ vs₂ G₂ budget h2 p hF hn s1 s2
    cases h2 with
    | stop q2 =>
      exfalso
      rcases s2.finished with h | h
      · subst h
        have := (q.symm.trans p).trans q2
        have := this.length_eq
        simp at this
      · have := s1.before [] e vs rfl
        simp only [gathered, List.flatMap_nil, List.length_nil] at h this
        omega
    | @visit _ e2 F'2 vs2 _ q2 r2 t2 =>
      have heF : e ∈ F := q.symm.subset (by simp)
      have heF2 : e2 ∈ F := p.symm.subset (q2.symm.subset (by simp))
      have e12 : e = e2 := by
        have m1 : e2 ∈ e :: F' := q.subset heF2
        have m2 : e ∈ e2 :: F'2 := q2.subset (p.subset heF)
        rcases List.mem_cons.1 m1 with m1 | m1
        · exact m1.symm
        · rcases List.mem_cons.1 m2 with m2 | m2
          · exact m2
          · have a := r e2 m1
            have b := r2 e m2
            rcases pair_total hk.lawful (e.1, e.2.root) (e2.1, e2.2.root) (hF e heF).1 (hF e2 heF2).1 with h | h | h
            · exact absurd h b
            · exact absurd h a
            · exact entry_unique hn heF heF2 h.2
      subst e12
      have pF : F'.Perm F'2 := ((q.symm.trans p).trans q2).cons_inv
      congr 1
      refine ih (budget := budget - (e.2.own.length : Nat)) t2 (pF.append_left _) (hF.step hk q) ?_ ?_ ?_
      · have h1 := (q.flatMap_right fun e => e.2.nodes).nodup_iff.1 hn
        rw [List.flatMap_cons] at h1
        rw [List.flatMap_append]
        exact h1.sublist ((opened_nodes e).append_right _)
      · refine ⟨?_, fun v1 f v2 hv => ?_⟩
        · rcases s1.finished with h | h
          · exact Or.inl h
          · right; rw [gathered_cons, List.length_append] at h; push_cast at h; omega
        · have := s1.before (e :: v1) f v2 (by rw [hv]; rfl)
          rw [gathered_cons, List.length_append] at this; push_cast at this; omega
      · refine ⟨?_, fun v1 f v2 hv => ?_⟩
        · rcases s2.finished with h | h
          · exact Or.inl h
          · right; rw [gathered_cons, List.length_append] at h; push_cast at h; omega
        · have := s2.before (e :: v1) f v2 (by rw [hv]; rfl)
          rw [gathered_cons, List.length_append] at this; push_cast at this; omega

/-! ### the far side first -/

theorem Num.KeyLaws.neg_lt_self (hk : N.KeyLaws) {a : N.V} (h : N.lt N.zero a = true) : N.lt (N.neg a) a = true := by
  have h1 := hk.neg_lt _ _ h
  have h2 := hk.lawful.lt_of_lt_of_eq _ _ _ h1 hk.neg_zero
  exact hk.lawful.lt_trans _ _ _ h2 h

theorem Num.KeyLaws.lt_neg_self (hk : N.KeyLaws) {a : N.V} (h : N.lt a N.zero = true) : N.lt a (N.neg a) = true := by
  have h1 := hk.neg_lt _ _ h
  have h2 := hk.lawful.lt_of_eq_of_lt _ _ _ (hk.lawful.eq_symm _ _ hk.neg_zero) h1
  exact hk.lawful.lt_trans _ _ _ h h2

/-- If one subtree opened by a node has a smaller key than the node and than the other subtree, it is served completely before
anything else. -/
theorem BestFirst.side_first (hk : N.KeyLaws) {F vs G : List (N.V × Tree)} {e : N.V × Tree} (h : BestFirst N x F (e :: vs) G)
    (hF : KeysOk N x F) {far near : N.V × Tree} (ho : (opened N x e).Perm [far, near]) (h1 : N.lt far.1 e.1 = true)
    (h2 : N.lt far.1 near.1 = true) :
    ∃ va vr GA, vs = va ++ vr ∧ BestFirst N x [far] va GA ∧ (vr = [] ∨ (GA = [] ∧ (va.map fun e => e.2.root).Perm far.2.nodes)) := by
  cases h with
  | @visit _ _ F' _ _ q r t =>
    have hF' : KeysOk N x F' := fun e he => hF e (q.symm.subset (by simp [he]))
    obtain ⟨va, vr, GA, i1, i2, i3⟩ := t.exhaust hk (A := [far]) (R := near :: F') (hF.step hk q)
      (by simpa using ho.append_right F') (by
        intro a ha b hb
        rw [List.mem_singleton] at ha
        subst ha
        rcases List.mem_cons.1 hb with rfl | hb
        · exact h2
        · refine hk.lt_of_lt_of_le (hF' b hb).1 h1 ?_
          by_contra hc
          exact r b hb (Or.inl (by simpa using hc)))
    refine ⟨va, vr, GA, i1, i2, ?_⟩
    rcases i3 with ⟨h, -⟩ | ⟨h, -⟩
    · exact Or.inl h
    · right
      subst h
      have := i2.content.1
      exact ⟨rfl, by simpa using this⟩

/-- **C64**: at an inner node visited with key `d`, with the query on the right side (margin `x > 0`, not NaN) and `-x < d`: the left
child has the smaller key `-x`, smaller than that of the right child; and after the inner node nothing else is visited until all
nodes of the left subtree have been visited (or the search ends).  The same with sides exchanged. -/
theorem C64_far_side_first (hk : N.KeyLaws) {F vs G : List (N.V × Tree)} {d : N.V} {i : Nat} {l r : Tree}
    (h : BestFirst N x F ((d, .split i l r) :: vs) G) (hF : KeysOk N x F) :
    (N.lt N.zero (x i) = true → N.lt (N.neg (x i)) d = true →
      N.min d (N.neg (x i)) = N.neg (x i) ∧ N.lt (N.neg (x i)) (N.min d (x i)) = true ∧
      ∃ va vr GA, vs = va ++ vr ∧ BestFirst N x [(N.neg (x i), l)] va GA ∧
        (vr = [] ∨ (GA = [] ∧ (va.map fun e => e.2.root).Perm l.nodes))) ∧
    (N.lt (x i) N.zero = true → N.lt (x i) d = true →
      N.min d (x i) = x i ∧ N.lt (x i) (N.min d (N.neg (x i))) = true ∧
      ∃ va vr GA, vs = va ++ vr ∧ BestFirst N x [(x i, r)] va GA ∧
        (vr = [] ∨ (GA = [] ∧ (va.map fun e => e.2.root).Perm r.nodes))) := by
  constructor
  · intro h0 hd
    have e1 := hk.min_right _ _ hd
    have hlt : N.lt (N.neg (x i)) (N.min d (x i)) = true := by
      rcases hk.min_or d (x i) (hk.lt_ordinary _ _ hd).2 (hk.lt_ordinary _ _ h0).2 with e | e
      · rw [e]; exact hd
      · rw [e]; exact hk.neg_lt_self h0
    refine ⟨e1, hlt, ?_⟩
    exact h.side_first hk hF (far := (N.neg (x i), l)) (near := (N.min d (x i), r))
      (by simp [opened, e1]) hd hlt
  · intro h0 hd
    have e1 := hk.min_right _ _ hd
    have hlt : N.lt (x i) (N.min d (N.neg (x i))) = true := by
      rcases hk.min_or d (N.neg (x i)) (hk.lt_ordinary _ _ hd).2 (hk.neg_ordinary _ (hk.lt_ordinary _ _ h0).1) with e | e
      · rw [e]; exact hd
      · rw [e]; exact hk.lt_neg_self h0
    refine ⟨e1, hlt, ?_⟩
    exact h.side_first hk hF (far := (x i, r)) (near := (N.min d (N.neg (x i)), l))
      (by simpa [opened, e1] using List.Perm.swap _ _ _) hd hlt

/-! ### one tree after the other -/

/-- A finite number. -/
def Num.Finite (N : Num) (a : N.V) : Prop := N.lt a N.inf = true ∧ N.lt (N.neg a) N.inf = true

theorem opened_below_inf (hk : N.KeyLaws) {t : Tree} (hx : ∀ i ∈ t.splitNodes, N.Finite (x i)) :
    ∀ e ∈ opened N x (N.inf, t), N.lt e.1 N.inf = true := by
  intro e he
  cases t with
  | split i l r =>
    obtain ⟨a, b⟩ := hx i (by simp [Tree.splitNodes])
    simp only [opened, List.mem_cons, List.not_mem_nil, or_false] at he
    rcases he with rfl | rfl
    · rw [hk.min_right _ _ b]; exact b
    · rw [hk.min_right _ _ a]; exact a
  | item i => simp [opened] at he
  | hole i => simp [opened] at he
  | bucket i ids => simp [opened] at he

/-- From the roots, the tree with the smallest root number is served completely before any other. -/
theorem BestFirst.first_tree (hk : N.KeyLaws) {t : Tree} {rest : List Tree} {vs G : List (N.V × Tree)}
    (h : BestFirst N x (((t :: rest).map fun t => (N.inf, t))) vs G) (hx : ∀ u ∈ t :: rest, ∀ i ∈ u.splitNodes, N.Finite (x i))
    (hr : ∀ u ∈ rest, t.root < u.root) :
    ∃ va vr GA, vs = va ++ vr ∧ BestFirst N x [(N.inf, t)] va GA ∧
      ((vr = [] ∧ G.Perm (GA ++ rest.map fun t => (N.inf, t))) ∨ (GA = [] ∧ BestFirst N x (rest.map fun t => (N.inf, t)) vr G)) := by
  have hF : KeysOk N x ((t :: rest).map fun t => (N.inf, t)) := by
    intro e he
    obtain ⟨u, hu, rfl⟩ := List.mem_map.1 he
    exact ⟨hk.inf_ordinary, fun i hi => (hk.lt_ordinary _ _ (hx u hu i hi).1).1⟩
  cases h with
  | stop q => exact ⟨[], [], [(N.inf, t)], rfl, .stop (List.Perm.refl _), Or.inl ⟨rfl, q.symm⟩⟩
  | @visit _ e F' vs _ q r s =>
    have he : e = (N.inf, t) := by
      obtain ⟨u, hu, rfl⟩ := List.mem_map.1 (q.symm.subset (List.mem_cons_self))
      rcases List.mem_cons.1 hu with rfl | hu
      · rfl
      · exfalso
        have ht : (N.inf, t) ∈ (N.inf, u) :: F' := q.subset (by simp)
        rcases List.mem_cons.1 ht with ht | ht
        · have := hr u hu
          rw [(Prod.mk.inj ht).2] at this
          omega
        · exact r _ ht (Or.inr ⟨hk.inf_ordinary, hr u hu⟩)
    subst he
    have pF : (rest.map fun t => (N.inf, t)).Perm F' := by
      rw [List.map_cons] at q; exact q.cons_inv
    obtain ⟨va, vr, GA, i1, i2, i3⟩ := s.exhaust hk (A := opened N x (N.inf, t)) (R := rest.map fun t => (N.inf, t)) (hF.step hk q)
      (pF.symm.append_left _) (by
        intro a ha b hb
        obtain ⟨u, hu, rfl⟩ := List.mem_map.1 hb
        exact opened_below_inf hk (hx t (by simp)) a ha)
    exact ⟨(N.inf, t) :: va, vr, GA, by rw [i1]; rfl, .visit (F' := []) (List.Perm.refl _) (by simp) (by simpa using i2), i3⟩

/-- With a budget of at most the number of items of the first tree, only the first tree is visited. -/
theorem BestFirst.first_tree_only (hk : N.KeyLaws) {t : Tree} {rest : List Tree} {vs G : List (N.V × Tree)}
    (h : BestFirst N x (((t :: rest).map fun t => (N.inf, t))) vs G) (hx : ∀ u ∈ t :: rest, ∀ i ∈ u.splitNodes, N.Finite (x i))
    (hr : ∀ u ∈ rest, t.root < u.root) {budget : Int} (hs : StopsAt budget vs G) (hb : budget ≤ t.items.length) :
    ∃ G', BestFirst N x [(N.inf, t)] vs G' ∧ StopsAt budget vs G' := by
  obtain ⟨va, vr, GA, i1, i2, i3⟩ := h.first_tree hk hx hr
  have hvr : vr = [] := by
    rcases i3 with i3 | ⟨rfl, -⟩
    · exact i3.1
    · cases vr with
      | nil => rfl
      | cons e vr =>
        exfalso
        have h1 := hs.before va e vr i1
        have h2 := i2.content.2.length_eq
        simp at h2
        omega
  subst hvr
  rw [List.append_nil] at i1
  subst i1
  refine ⟨GA, i2, ?_, hs.before⟩
  rcases hs.finished with h | h
  · left
    rcases i3 with ⟨-, i3⟩ | ⟨i3, -⟩
    · rw [h] at i3
      have := i3.symm.eq_nil
      simp at this
      exact this.1
    · exact i3
  · exact Or.inr h

end

/-! ## Searches -/

/-- The margin of the query at node number `i`. -/
def marginOf (c : Cfg) (mem : Block) (query : List c.N.V) (i : Nat) : c.N.V :=
  match c.D.margin mem.get (i * c.L.nodeSize) query with
  | .ok x => x
  | .error _ => c.N.zero

theorem marginsAt_marginOf {c : Cfg} {mem : Block} {query : List c.N.V} (hm : MarginOk c query) (t : Tree) :
    MarginsAt c mem query (marginOf c mem query) t := by
  intro i _
  unfold marginOf
  obtain ⟨y, hy⟩ := hm mem.get (i * c.L.nodeSize)
  rw [hy]

namespace Search
variable {c : Cfg} {mem : Block} {n : Nat} {roots : List Nat} {m : Nat → Option (List c.N.V)} {ts : List Tree}

/-- A search visits the nodes best-first and answers from what it gathered. -/
theorem walk_answer (hc : c.WF) (hk : c.N.KeyLaws) (hM : MinKeys c) (h : Searchable c mem n roots m ts) {query : List c.N.V}
    (hq : GoodQuery c query) (ho : ∀ t ∈ ts, ∀ i ∈ t.splitNodes, c.N.Ordinary (marginOf c mem query i)) {k b : Int} {fuel : Nat}
    {ctx : Ctx c} {ids : List Nat} {ds : List c.N.V} {ctx' : Ctx c} (hr : run c fuel mem n roots query k b ctx = .ok (ids, ds, ctx')) :
    ∃ vs G, collect mem n query (if b = -1 then k * roots.length else b) fuel (initQueue c roots) [] = .ok (gathered vs) ∧
      BestFirst c.N (marginOf c mem query) (ts.map fun t => (c.N.inf, t)) vs G ∧
      StopsAt (if b = -1 then k * roots.length else b) vs G ∧
      TopK c.N c.D.normalizedDistance (itemDist c m query) (itemsAmong m n (gathered vs)) k.toNat ids ds := by
  obtain ⟨done, rest, -, -, d3, d4⟩ := answer hc hk.lawful h hq hr
  obtain ⟨vs, G, r1, r2, r3⟩ := collect_walk hc hk hM h (fun t _ => marginsAt_marginOf hq.margin t) ho
    (budget := if b = -1 then k * roots.length else b) (Nat.lt_succ_self (Tree.sizes ts))
  have e := collect_det d3 r1
  rw [e] at d3 d4
  exact ⟨vs, G, d3, r2, r3, d4⟩

theorem first_split {ts : List Tree} {t : Tree} (ht : t ∈ ts) (hroots : (ts.map Tree.root).Nodup) (hfirst : ∀ u ∈ ts, t.root ≤ u.root) :
    ∃ rest, ts.Perm (t :: rest) ∧ ∀ u ∈ rest, t.root < u.root := by
  obtain ⟨t1, t2, hts⟩ := List.append_of_mem ht
  have p : ts.Perm (t :: (t1 ++ t2)) := by rw [hts]; exact List.perm_middle
  refine ⟨t1 ++ t2, p, fun u hu => ?_⟩
  have h1 := hfirst u (p.symm.subset (by simp [List.mem_append.1 hu]))
  have h3 := (p.map Tree.root).nodup_iff.1 hroots
  rw [List.map_cons, List.nodup_cons] at h3
  have : t.root ≠ u.root := fun e => h3.1 (e ▸ List.mem_map_of_mem hu)
  omega

/-- **C64**, what it means for the answer: when the query lies on the right of the root of the first tree and the budget is at most the
number of items on the left, the answer consists of items on the left only; and with sides exchanged. -/
theorem C64_far_items_only (hc : c.WF) (hk : c.N.KeyLaws) (hM : MinKeys c) {i : Nat} {l r : Tree}
    (h : Searchable c mem n roots m ts) {query : List c.N.V} (hq : GoodQuery c query)
    (hx : ∀ t ∈ ts, ∀ i ∈ t.splitNodes, c.N.Finite (marginOf c mem query i)) (ht : Tree.split i l r ∈ ts)
    (hroots : (ts.map Tree.root).Nodup) (hfirst : ∀ u ∈ ts, i ≤ u.root) {k b : Int} {fuel : Nat}
    {ctx : Ctx c} {ids : List Nat} {ds : List c.N.V} {ctx' : Ctx c} (hr : run c fuel mem n roots query k b ctx = .ok (ids, ds, ctx')) :
    (c.N.lt c.N.zero (marginOf c mem query i) = true → (if b = -1 then k * roots.length else b) ≤ l.items.length →
      ∀ j ∈ ids, j ∈ l.items) ∧
    (c.N.lt (marginOf c mem query i) c.N.zero = true → (if b = -1 then k * roots.length else b) ≤ r.items.length →
      ∀ j ∈ ids, j ∈ r.items) := by
  have ho : ∀ t ∈ ts, ∀ j ∈ t.splitNodes, c.N.Ordinary (marginOf c mem query j) :=
    fun t ht j hj => (hk.lt_ordinary _ _ (hx t ht j hj).1).1
  obtain ⟨vs, G, -, r2, r3, r4⟩ := walk_answer hc hk hM h hq ho hr
  obtain ⟨rest, p, hlt⟩ := first_split ht hroots hfirst
  replace hx : ∀ t ∈ Tree.split i l r :: rest, ∀ i ∈ t.splitNodes, c.N.Finite (marginOf c mem query i) :=
    fun t ht => hx t (p.symm.subset ht)
  replace ho : ∀ t ∈ Tree.split i l r :: rest, ∀ j ∈ t.splitNodes, c.N.Ordinary (marginOf c mem query j) :=
    fun t ht => ho t (p.symm.subset ht)
  replace hfirst := hlt
  replace r2 := r2.perm (p.symm.map fun t => (c.N.inf, t))
  generalize (if b = -1 then k * roots.length else b) = budget at r3 ⊢
  have hfin := hx (.split i l r) (by simp) i (by simp [Tree.splitNodes])
  have hF : KeysOk c.N (marginOf c mem query) [(c.N.inf, Tree.split i l r)] := by
    intro e he
    rw [List.mem_singleton] at he
    subst he
    exact ⟨hk.inf_ordinary, ho _ (by simp)⟩
  have sub : ∀ {far : c.N.V × Tree}, budget ≤ far.2.items.length → ∀ {vs' : List (c.N.V × Tree)} {va vr GA : List (c.N.V × Tree)},
      vs = (c.N.inf, .split i l r) :: vs' → vs' = va ++ vr →
      BestFirst c.N (marginOf c mem query) [far] va GA → (vr = [] ∨ (GA = [] ∧ (va.map fun e => e.2.root).Perm far.2.nodes)) →
      ∀ j ∈ ids, j ∈ far.2.items := by
    intro far hb vs' va vr GA e1 e2 hva hor j hj
    have hg := hva.content.2
    have hvr : vr = [] := by
      rcases hor with h | ⟨rfl, -⟩
      · exact h
      · cases vr with
        | nil => rfl
        | cons e vr =>
          exfalso
          have h1 := r3.before ((c.N.inf, .split i l r) :: va) e vr (by rw [e1, e2]; rfl)
          have h2 := hg.length_eq
          rw [gathered_cons] at h1
          simp [Tree.own] at h1 h2
          omega
    subst hvr
    have h3 := (mem_itemsAmong.1 (r4.sub j hj)).2.1
    rw [e1, e2, gathered_cons, List.append_nil] at h3
    have h4 : j ∈ gathered va := by simpa [Tree.own] using h3
    have := hg.subset (List.mem_append_left _ h4)
    simpa using this
  have hnil : vs = [] → ∀ j ∈ ids, False := by
    intro e j hj
    subst e
    have := (mem_itemsAmong.1 (r4.sub j hj)).2.1
    simp [gathered] at this
  constructor
  · intro hpos hb
    obtain ⟨G', s1, s2⟩ := r2.first_tree_only hk hx hfirst r3 (by simp [Tree.items]; omega)
    cases s1 with
    | stop _ => exact fun j hj => (hnil rfl j hj).elim
    | @visit _ e F' vs' _ q rr s =>
      have he : e = (c.N.inf, .split i l r) := by
        have := q.length_eq
        have hF' : F' = [] := List.eq_nil_of_length_eq_zero (by simpa using this.symm)
        subst hF'
        exact (List.singleton_perm_singleton.1 q).symm
      subst he
      obtain ⟨-, -, va, vr, GA, v1, v2, v3⟩ := (C64_far_side_first hk (.visit q rr s) hF).1 hpos hfin.2
      exact sub (far := (_, l)) hb rfl v1 v2 v3
  · intro hneg hb
    obtain ⟨G', s1, s2⟩ := r2.first_tree_only hk hx hfirst r3 (by simp [Tree.items]; omega)
    cases s1 with
    | stop _ => exact fun j hj => (hnil rfl j hj).elim
    | @visit _ e F' vs' _ q rr s =>
      have he : e = (c.N.inf, .split i l r) := by
        have := q.length_eq
        have hF' : F' = [] := List.eq_nil_of_length_eq_zero (by simpa using this.symm)
        subst hF'
        exact (List.singleton_perm_singleton.1 q).symm
      subst he
      obtain ⟨-, -, va, vr, GA, v1, v2, v3⟩ := (C64_far_side_first hk (.visit q rr s) hF).2 hneg hfin.1
      exact sub (far := (_, r)) hb rfl v1 v2 v3

theorem Searchable.perm {ts' : List Tree} (h : Searchable c mem n roots m ts) (p : ts.Perm ts') :
    Searchable c mem n (ts'.map Tree.root) m ts' :=
  ⟨rfl, fun t ht => h.walk t (p.symm.subset ht), fun t ht => h.below t (p.symm.subset ht), h.slots, h.bound, h.items, h.gaps⟩

theorem Searchable.one (h : Searchable c mem n roots m ts) {t : Tree} (ht : t ∈ ts) : Searchable c mem n [t.root] m [t] :=
  ⟨rfl, fun u hu => by rw [List.mem_singleton] at hu; subst hu; exact h.walk u ht,
    fun u hu => by rw [List.mem_singleton] at hu; subst hu; exact h.below u ht, h.slots, h.bound, h.items, h.gaps⟩

/-- A search depends on the roots only through the candidates. -/
theorem run_of_collect_eq {roots' : List Nat} {query : List c.N.V} {k b b' : Int} {fuel fuel' : Nat} {ctx ctx' : Ctx c} {ids : List Nat}
    {ds : List c.N.V} {col : List Nat} (hr : run c fuel mem n roots query k b ctx = .ok (ids, ds, ctx'))
    (h1 : collect mem n query (if b = -1 then k * roots.length else b) fuel (initQueue c roots) [] = .ok col)
    (h2 : collect mem n query (if b' = -1 then k * roots'.length else b') fuel' (initQueue c roots') [] = .ok col) :
    run c fuel' mem n roots' query k b' ctx = .ok (ids, ds, ctx') := by
  obtain ⟨col', e1, e2⟩ := collect_of_run hr
  rw [h1] at e1
  cases e1
  obtain ⟨l1, -⟩ := (loop_iff fuel (initQueue c roots) ctx.nns _ _).2 ⟨col, h1, e2, rfl, rfl⟩
  obtain ⟨l2, -⟩ := (loop_iff fuel' (initQueue c roots') ctx.nns _ _).2 ⟨col, h2, e2, rfl, rfl⟩
  unfold run at hr ⊢
  simp only [l1, bind, Except.bind] at hr
  simp only [l2, bind, Except.bind]
  exact hr

/-- With a budget of at most the number of items of the tree with the smallest root number, a search gives the answer of a search in
that tree alone. -/
theorem first_tree_answer (hc : c.WF) (hk : c.N.KeyLaws) (hM : MinKeys c) (h : Searchable c mem n roots m ts) {query : List c.N.V}
    (hq : GoodQuery c query) {t : Tree} (ht : t ∈ ts) (hn : t.nodes.Nodup)
    (hx : ∀ t ∈ ts, ∀ i ∈ t.splitNodes, c.N.Finite (marginOf c mem query i)) (hroots : roots.Nodup)
    (hfirst : ∀ u ∈ ts, t.root ≤ u.root) {k b : Int} {fuel : Nat}
    (h0 : 0 ≤ (if b = -1 then k * roots.length else b)) (hb : (if b = -1 then k * roots.length else b) ≤ t.items.length)
    {ctx : Ctx c} {ids : List Nat} {ds : List c.N.V} {ctx' : Ctx c} (hr : run c fuel mem n roots query k b ctx = .ok (ids, ds, ctx'))
    {fuel' : Nat} (hf : t.size < fuel') :
    run c fuel' mem n [t.root] query k (if b = -1 then k * roots.length else b) ctx = .ok (ids, ds, ctx') := by
  have ho : ∀ t ∈ ts, ∀ j ∈ t.splitNodes, c.N.Ordinary (marginOf c mem query j) :=
    fun t ht j hj => (hk.lt_ordinary _ _ (hx t ht j hj).1).1
  obtain ⟨vs, G, r1, r2, r3, r4⟩ := walk_answer hc hk hM h hq ho hr
  obtain ⟨rest, p, hlt⟩ := first_split ht (by rw [h.roots]; exact hroots) hfirst
  have r2' := r2.perm (p.symm.map fun t => (c.N.inf, t))
  obtain ⟨G', s1, s2⟩ := r2'.first_tree_only hk (fun u hu => hx u (p.symm.subset hu)) hlt r3 hb
  obtain ⟨vs', G'', q1, q2, q3⟩ := collect_walk hc hk hM (Searchable.one h ht) (query := query) (x := marginOf c mem query)
    (fun t _ => marginsAt_marginOf hq.margin t) (fun u hu => ho u (by rw [List.mem_singleton] at hu; subst hu; exact ht))
    (budget := if b = -1 then k * roots.length else b) (fuel := fuel') (by simpa [Tree.sizes] using hf)
  have e : vs = vs' := s1.unique hk q2 (List.Perm.refl _) (by
    intro e he
    rw [List.mem_singleton] at he
    subst he
    exact ⟨hk.inf_ordinary, ho t ht⟩) (by simpa using hn) s2 q3
  subst e
  refine run_of_collect_eq hr r1 ?_
  rw [if_neg (by omega)]
  exact q1

end Search

/-! ### built indexes -/

theorem SubTree.nodes_nodup {L : Layout} {b : Bytes} {n : Nat} {t : Tree} (h : SubTree L b n t) :
    (∀ y ∈ t.nodes, (n ≤ y ∧ y ∈ t.inner) ∨ (y < n ∧ y ∈ t.items)) ∧ (t.inner.Nodup → t.items.Nodup → t.nodes.Nodup) := by
  induction t with
  | item i => exact ⟨by simpa [Tree.nodes, Tree.items] using Or.inr h.1, fun _ _ => by simp [Tree.nodes]⟩
  | hole i => exact h.elim
  | bucket i ids => exact ⟨by simpa [Tree.nodes, Tree.inner] using Or.inl h.1, fun _ _ => by simp [Tree.nodes]⟩
  | split i l r ihl ihr =>
    obtain ⟨h1, h2, h3, -, -, -, -, -, -, hl, hr⟩ := h
    obtain ⟨l1, l2⟩ := ihl hl
    obtain ⟨r1, r2⟩ := ihr hr
    refine ⟨?_, fun hi hit => ?_⟩
    · intro y hy
      simp only [Tree.nodes, List.mem_cons, List.mem_append] at hy
      simp only [Tree.inner, Tree.items, List.mem_append, List.mem_singleton]
      rcases hy with rfl | hy | hy
      · exact Or.inl ⟨h1, Or.inr rfl⟩
      · rcases l1 y hy with h | h
        · exact Or.inl ⟨h.1, Or.inl (Or.inl h.2)⟩
        · exact Or.inr ⟨h.1, Or.inl h.2⟩
      · rcases r1 y hy with h | h
        · exact Or.inl ⟨h.1, Or.inl (Or.inr h.2)⟩
        · exact Or.inr ⟨h.1, Or.inr h.2⟩
    · simp only [Tree.inner, Tree.items] at hi hit
      rw [List.nodup_append] at hi hit
      obtain ⟨i1, -, i3⟩ := hi
      rw [List.nodup_append] at i1
      obtain ⟨j1, j2, j3⟩ := i1
      obtain ⟨k1, k2, k3⟩ := hit
      simp only [Tree.nodes]
      rw [List.nodup_cons, List.nodup_append]
      refine ⟨?_, l2 j1 k1, r2 j2 k2, ?_⟩
      · intro hm
        rw [List.mem_append] at hm
        rcases hm with hm | hm
        · rcases l1 i hm with h | h
          · exact i3 i (by simp [h.2]) i (by simp) rfl
          · omega
        · rcases r1 i hm with h | h
          · exact i3 i (by simp [h.2]) i (by simp) rfl
          · omega
      · intro a ha d hd e
        subst e
        rcases l1 a ha with h | h <;> rcases r1 a hd with g | g
        · exact j3 a h.2 a g.2 rfl
        · omega
        · omega
        · exact k3 a h.2 a g.2 rfl

theorem RootTree.nodes_nodup {L : Layout} {b : Bytes} {n : Nat} {live : List Nat} {t : Tree} (h : RootTree L b n live t)
    (hi : t.inner.Nodup) (hl : live.Nodup) : t.nodes.Nodup := by
  cases t with
  | item i => exact h.elim
  | hole i => exact h.elim
  | bucket i ids => simp [Tree.nodes]
  | split i l r =>
    obtain ⟨h1, h2, h3, h4, h5, h6, h7, h8⟩ := h
    rcases h8 with ⟨-, -, hp, hl', hr'⟩ | ⟨j, -, hj, rfl, rfl, h0⟩
    · obtain ⟨l1, l2⟩ := hl'.nodes_nodup
      obtain ⟨r1, r2⟩ := hr'.nodes_nodup
      have hit := hp.nodup_iff.2 hl
      simp only [Tree.inner] at hi
      rw [List.nodup_append] at hi hit
      obtain ⟨i1, -, i3⟩ := hi
      rw [List.nodup_append] at i1
      obtain ⟨j1, j2, j3⟩ := i1
      obtain ⟨k1, k2, k3⟩ := hit
      simp only [Tree.nodes]
      rw [List.nodup_cons, List.nodup_append]
      refine ⟨?_, l2 j1 k1, r2 j2 k2, ?_⟩
      · intro hm
        rw [List.mem_append] at hm
        rcases hm with hm | hm
        · rcases l1 i hm with h | h
          · exact i3 i (by simp [h.2]) i (by simp) rfl
          · omega
        · rcases r1 i hm with h | h
          · exact i3 i (by simp [h.2]) i (by simp) rfl
          · omega
      · intro a ha d hd e
        subst e
        rcases l1 a ha with h | h <;> rcases r1 a hd with g | g
        · exact j3 a h.2 a g.2 rfl
        · omega
        · omega
        · exact k3 a h.2 a g.2 rfl
    · have e1 := hj.1
      have e2 := hj.2
      have : j ≠ 0 := by rintro rfl; omega
      simp [Tree.nodes]
      omega

theorem Holds.splitNodes {L : Layout} {b : Bytes} {n : Nat} {t : Tree} (h : Holds L b n t) : ∀ i ∈ t.splitNodes, L.K < ndAt L b i ∧ i ∈ t.inner := by
  induction t with
  | item i => intro j hj; simp [Tree.splitNodes] at hj
  | hole i => intro j hj; simp [Tree.splitNodes] at hj
  | bucket i ids => intro j hj; simp [Tree.splitNodes] at hj
  | split i l r ihl ihr =>
    obtain ⟨h1, -, -, hl, hr⟩ := h
    intro j hj
    simp only [Tree.splitNodes, List.mem_cons, List.mem_append] at hj
    simp only [Tree.inner, List.mem_append, List.mem_singleton]
    rcases hj with rfl | hj | hj
    · exact ⟨h1, Or.inr rfl⟩
    · exact ⟨(ihl hl j hj).1, Or.inl (Or.inl (ihl hl j hj).2)⟩
    · exact ⟨(ihr hr j hj).1, Or.inl (Or.inr (ihr hr j hj).2)⟩

theorem RootTree.items_length_ge {L : Layout} {b : Bytes} {n : Nat} {live : List Nat} {t : Tree} (h : RootTree L b n live t) :
    live.length ≤ t.items.length := by
  cases t with
  | item i => exact h.elim
  | hole i => exact h.elim
  | bucket i ids =>
    obtain ⟨-, -, -, -, l, hl, rfl⟩ := h
    simp [Tree.items, hl.length_eq]
  | split i l r =>
    obtain ⟨-, -, -, -, -, -, -, h8⟩ := h
    rcases h8 with ⟨-, -, hp, -⟩ | ⟨j, rfl, -, rfl, rfl, -⟩
    · rw [← hp.length_eq]; simp [Tree.items]
    · simp [Tree.items]

theorem Tree.roots_nodup {L : Layout} {b : Bytes} {n : Nat} {live : List Nat} {ts : List Tree} (h : ∀ t ∈ ts, RootTree L b n live t)
    (hi : (ts.flatMap Tree.inner).Nodup) : (ts.map Tree.root).Nodup := by
  have hroot : ∀ t ∈ ts, t.root ∈ t.inner := by
    intro t ht
    have := h t ht
    cases t with
    | item i => exact this.elim
    | hole i => exact this.elim
    | bucket i ids => simp [Tree.root, Tree.inner]
    | split i l r => simp [Tree.root, Tree.inner]
  induction ts with
  | nil => simp
  | cons t ts ih =>
    rw [List.flatMap_cons, List.nodup_append] at hi
    rw [List.map_cons, List.nodup_cons]
    refine ⟨?_, ih (fun u hu => h u (by simp [hu])) hi.2.1 (fun u hu => hroot u (by simp [hu]))⟩
    intro hm
    obtain ⟨u, hu, e⟩ := List.mem_map.1 hm
    exact hi.2.2 _ (hroot t (by simp)) _ (List.mem_flatMap.2 ⟨u, hu, hroot u (by simp [hu])⟩) e.symm

/-- The margins of a query at the inner nodes of an index are finite. (The last `len(roots)` nodes are copies of the roots, and never
visited.) -/
def FiniteMargins {c : Cfg} (s : Idx c) (w : World) (query : List c.N.V) : Prop :=
  ∀ i, s.nItems ≤ i → i + s.roots.length < s.nNodes → c.L.K < ndAt c.L (s.mem w).get i →
    ∃ y, c.D.margin (s.mem w).get (i * c.L.nodeSize) query = .ok y ∧ c.N.Finite y

/-- The margins of a query at the inner nodes below the roots of an index are not NaN. -/
def OrdinaryMargins {c : Cfg} (s : Idx c) (w : World) (query : List c.N.V) : Prop :=
  ∀ t : Tree, t.root ∈ s.roots → Holds c.L (s.mem w).get s.nItems t → ∀ i ∈ t.splitNodes,
    ∀ y, c.D.margin (s.mem w).get (i * c.L.nodeSize) query = .ok y → c.N.Ordinary y

theorem inner_margins {c : Cfg} {s : Idx c} {w : World} {query : List c.N.V} {p : c.N.V → Prop} {ts : List Tree}
    {m : Nat → Option (List c.N.V)} (S : Searchable c (s.mem w) s.nItems s.roots m ts)
    (hinner : (ts.flatMap Tree.inner).Perm (List.range' s.nItems (s.nNodes - s.roots.length - s.nItems)))
    (h : ∀ i, s.nItems ≤ i → i + s.roots.length < s.nNodes → c.L.K < ndAt c.L (s.mem w).get i →
      ∃ y, c.D.margin (s.mem w).get (i * c.L.nodeSize) query = .ok y ∧ p y) :
    ∀ t ∈ ts, ∀ i ∈ t.splitNodes, p (marginOf c (s.mem w) query i) := by
  intro u hu i hi
  obtain ⟨g1, g2⟩ := Holds.splitNodes (S.walk u hu).holds i hi
  have g3 := hinner.subset (List.mem_flatMap.2 ⟨u, hu, g2⟩)
  rw [List.mem_range'_1] at g3
  obtain ⟨y, y1, y2⟩ := h i g3.1 (by omega) g1
  unfold marginOf
  rw [y1]; exact y2

/-- The memory determines the inner nodes of a tree. -/
theorem Holds.splitNodes_unique {L : Layout} {vs : Nat} (hL : L.Ok vs) {b : Bytes} {n : Nat} {t t' : Tree} (h : Holds L b n t) (h' : Holds L b n t')
    (hr : t.root = t'.root) : t.splitNodes = t'.splitNodes := by
  have leaf : ∀ {t : Tree}, Holds L b n t → t.splitNodes = [] ∨ L.K < ndAt L b t.root := by
    intro t h
    cases t with
    | split i l r => exact Or.inr h.1
    | _ => exact Or.inl rfl
  have hK := hL.K_ge
  have leaf' : ∀ {t : Tree}, Holds L b n t → (∃ i l r, t = .split i l r) ∨ (t.splitNodes = [] ∧ ndAt L b t.root ≤ L.K) := by
    intro t h
    cases t with
    | split i l r => exact Or.inl ⟨i, l, r, rfl⟩
    | item i => exact Or.inr ⟨rfl, by have := h.2; simp only [Tree.root]; omega⟩
    | hole i => exact Or.inr ⟨rfl, by have : ndAt L b i = 0 := h; simp only [Tree.root]; omega⟩
    | bucket i ids => exact Or.inr ⟨rfl, h.2.1⟩
  induction t generalizing t' with
  | split i l r ihl ihr =>
    rcases leaf' h' with ⟨j, l', r', rfl⟩ | ⟨h1, h2⟩
    · obtain rfl : i = j := hr
      obtain ⟨-, a1, a2, a3, a4⟩ := h
      obtain ⟨-, b1, b2, b3, b4⟩ := h'
      simp only [Tree.splitNodes]
      rw [ihl a3 b3 (a1.symm.trans b1), ihr a4 b4 (a2.symm.trans b2)]
    · rw [← hr] at h2
      exact absurd h.1 (Nat.not_lt.2 h2)
  | item i =>
    rcases leaf' h with ⟨_, _, _, h⟩ | ⟨h1, h2⟩
    · cases h
    · rcases leaf h' with h | h
      · rw [h]; rfl
      · rw [← hr] at h; omega
  | hole i =>
    rcases leaf' h with ⟨_, _, _, h⟩ | ⟨h1, h2⟩
    · cases h
    · rcases leaf h' with h | h
      · rw [h]; rfl
      · rw [← hr] at h; omega
  | bucket i ids =>
    rcases leaf' h with ⟨_, _, _, h⟩ | ⟨h1, h2⟩
    · cases h
    · rcases leaf h' with h | h
      · rw [h]; rfl
      · rw [← hr] at h; omega

theorem Session.ordinaryMargins {c : Cfg} {numCPU : Nat} {pol : BuildPolicy} {adds : List (Nat × List c.N.V)} {trees workers : Int}
    {s s' : Idx c} (h : Session c numCPU pol adds trees workers s s') (hs : SplitsKept c numCPU pol (slotCount adds) trees workers)
    (hk : c.N.KeyLaws) {w : World} {query : List c.N.V} (hfin : FiniteMargins s' w query) : OrdinaryMargins s' w query := by
  obtain ⟨ts, S, -, -, -, hroot, hinner⟩ := h.searchable_inner hs w
  intro t ht hh i hi y hy
  rw [← S.roots] at ht
  obtain ⟨u, hu, e⟩ := List.mem_map.1 ht
  rw [hh.splitNodes_unique h.wf.layout (S.walk u hu).holds e.symm] at hi
  have := inner_margins S hinner hfin u hu i hi
  unfold marginOf at this
  rw [hy] at this
  exact (hk.lt_ordinary _ _ this.1).1

/-- **C64**: a query of a built index visits the nodes of the trees in the order of `BestFirst`, and so the far side of a hyperplane
before the near one: after the visit `(d, .split i l r)` of an inner node at which the query lies on the right side (margin positive),
with a key `d` greater than minus the margin, nothing else is visited before all nodes of the left subtree have been; and with sides
exchanged.  The answer are the best of the items found on the way.  (Given that no margin is NaN.) -/
theorem Session.C64_search_order {c : Cfg} {numCPU : Nat} {pol : BuildPolicy} {adds : List (Nat × List c.N.V)} {trees workers : Int}
    {s s' : Idx c} (h : Session c numCPU pol adds trees workers s s')
    (hk : c.N.KeyLaws) (hM : MinKeys c) (w : World) {query : List c.N.V} (hq : GoodQuery c query) (hord : OrdinaryMargins s' w query)
    {k b : Int} {fuel : Nat} {ctx ctx' : Ctx c} {ids : List Nat} {ds : List c.N.V}
    (hrun : s'.getNnsByVector fuel w query k b ctx = .ok (ids, ds, ctx')) :
    ∃ (ts : List Tree) (vs G : List (c.N.V × Tree)), ts.map Tree.root = s'.roots ∧
      (∀ t ∈ ts, Holds c.L (s'.mem w).get s'.nItems t) ∧
      BestFirst c.N (marginOf c (s'.mem w) query) (ts.map fun t => (c.N.inf, t)) vs G ∧
      StopsAt (if b = -1 then k * s'.roots.length else b) vs G ∧
      TopK c.N c.D.normalizedDistance (itemDist c (lastAdded adds) query) (itemsAmong (lastAdded adds) s'.nItems (gathered vs)) k.toNat ids ds ∧
      ∀ (v1 : List (c.N.V × Tree)) (d : c.N.V) (i : Nat) (l r : Tree) (v2 : List (c.N.V × Tree)), vs = v1 ++ (d, .split i l r) :: v2 →
        (c.N.lt c.N.zero (marginOf c (s'.mem w) query i) = true → c.N.lt (c.N.neg (marginOf c (s'.mem w) query i)) d = true →
          ∃ va vr, v2 = va ++ vr ∧ (∀ e ∈ va, e.2.root ∈ l.nodes) ∧ (vr = [] ∨ (va.map fun e => e.2.root).Perm l.nodes)) ∧
        (c.N.lt (marginOf c (s'.mem w) query i) c.N.zero = true → c.N.lt (marginOf c (s'.mem w) query i) d = true →
          ∃ va vr, v2 = va ++ vr ∧ (∀ e ∈ va, e.2.root ∈ r.nodes) ∧ (vr = [] ∨ (va.map fun e => e.2.root).Perm r.nodes)) := by
  obtain ⟨ts, S, -⟩ := h.searchable w
  have ho : ∀ t ∈ ts, ∀ i ∈ t.splitNodes, c.N.Ordinary (marginOf c (s'.mem w) query i) := by
    intro t ht i hi
    obtain ⟨y, hy⟩ := hq.margin (s'.mem w).get (i * c.L.nodeSize)
    have e : marginOf c (s'.mem w) query i = y := by unfold marginOf; rw [hy]
    rw [e]
    exact hord t (by rw [← S.roots]; exact List.mem_map_of_mem ht) (S.walk t ht).holds i hi y hy
  obtain ⟨vs, G, -, r2, r3, r4⟩ := Search.walk_answer h.wf hk hM S hq ho hrun
  refine ⟨ts, vs, G, S.roots, fun t ht => (S.walk t ht).holds, r2, r3, r4, ?_⟩
  rintro v1 d i l r v2 rfl
  obtain ⟨F, b1, b2⟩ := r2.split
  have hF : KeysOk c.N (marginOf c (s'.mem w) query) (ts.map fun t => (c.N.inf, t)) := by
    intro e he
    obtain ⟨t, ht, rfl⟩ := List.mem_map.1 he
    exact ⟨hk.inf_ordinary, ho t ht⟩
  have key := C64_far_side_first hk b2 (b1.keysOk hk hF)
  constructor
  · intro h1 h2
    obtain ⟨-, -, va, vr, GA, v1, v2, v3⟩ := key.1 h1 h2
    refine ⟨va, vr, v1, fun e he => ?_, v3.imp id fun h => h.2⟩
    have := v2.content.1.subset (List.mem_append_left _ (List.mem_map_of_mem he))
    simpa using this
  · intro h1 h2
    obtain ⟨-, -, va, vr, GA, v1, v2, v3⟩ := key.2 h1 h2
    refine ⟨va, vr, v1, fun e he => ?_, v3.imp id fun h => h.2⟩
    have := v2.content.1.subset (List.mem_append_left _ (List.mem_map_of_mem he))
    simpa using this

/-- **C64**, what it means for answers: let the tree with the smallest root number have an inner node `i` as its root.  If the query
lies on the right of it and the budget is at most the number of items on the left, the answer consists of items on the left; and with
sides exchanged. -/
theorem Session.C64_far_items_only {c : Cfg} {numCPU : Nat} {pol : BuildPolicy} {adds : List (Nat × List c.N.V)} {trees workers : Int}
    {s s' : Idx c} (h : Session c numCPU pol adds trees workers s s') (hs : SplitsKept c numCPU pol (slotCount adds) trees workers)
    (hk : c.N.KeyLaws) (hM : MinKeys c) (w : World) {query : List c.N.V} (hq : GoodQuery c query) (hfin : FiniteMargins s' w query) :
    ∃ ts : List Tree, ts.map Tree.root = s'.roots ∧ (∀ t ∈ ts, RootTree c.L (s'.mem w).get s'.nItems (addedIds adds) t) ∧
      ∀ (i : Nat) (l r : Tree), Tree.split i l r ∈ ts → (∀ j ∈ s'.roots, i ≤ j) →
      ∀ {k b : Int} {fuel : Nat} {ctx ctx' : Ctx c} {ids : List Nat} {ds : List c.N.V},
        s'.getNnsByVector fuel w query k b ctx = .ok (ids, ds, ctx') →
        (c.N.lt c.N.zero (marginOf c (s'.mem w) query i) = true → (if b = -1 then k * s'.roots.length else b) ≤ l.items.length →
          ∀ j ∈ ids, j ∈ l.items) ∧
        (c.N.lt (marginOf c (s'.mem w) query i) c.N.zero = true → (if b = -1 then k * s'.roots.length else b) ≤ r.items.length →
          ∀ j ∈ ids, j ∈ r.items) := by
  obtain ⟨ts, S, -, -, -, hroot, hinner⟩ := h.searchable_inner hs w
  refine ⟨ts, S.roots, hroot, fun i l r ht hmin k b fuel ctx ctx' ids ds hrun => ?_⟩
  have hroots := Tree.roots_nodup hroot (hinner.nodup_iff.2 List.nodup_range')
  exact Search.C64_far_items_only h.wf hk hM S hq (inner_margins S hinner hfin) ht hroots
    (fun u hu => hmin _ (by rw [← S.roots]; exact List.mem_map_of_mem hu)) hrun

/-- **C71**: as long as the budget is at most the number of added items, a query of a built index looks at one tree only, the one with
the smallest root number: the answer is that of the index with this tree alone.  (Given that inner nodes survive, `SplitsKept`, and
finite margins.) -/
theorem Session.C71_first_tree_only {c : Cfg} {numCPU : Nat} {pol : BuildPolicy} {adds : List (Nat × List c.N.V)} {trees workers : Int}
    {s s' : Idx c} (h : Session c numCPU pol adds trees workers s s') (hs : SplitsKept c numCPU pol (slotCount adds) trees workers)
    (hk : c.N.KeyLaws) (hM : MinKeys c) (w : World) {query : List c.N.V} (hq : GoodQuery c query) (hfin : FiniteMargins s' w query)
    {r : Nat} (hr : r ∈ s'.roots) (hmin : ∀ r' ∈ s'.roots, r ≤ r') {k b : Int} {fuel : Nat}
    (h0 : 0 ≤ (if b = -1 then k * s'.roots.length else b)) (hb : (if b = -1 then k * s'.roots.length else b) ≤ (addedIds adds).length)
    {ctx ctx' : Ctx c} {ids : List Nat} {ds : List c.N.V} (hrun : s'.getNnsByVector fuel w query k b ctx = .ok (ids, ds, ctx')) :
    ∃ fuel', { s' with roots := [r] }.getNnsByVector fuel' w query k (if b = -1 then k * s'.roots.length else b) ctx = .ok (ids, ds, ctx') := by
  obtain ⟨ts, S, -, -, -, hroot, hinner⟩ := h.searchable_inner hs w
  obtain ⟨N0, B, -⟩ := h.built
  have hlive : (addedIds adds).Nodup := liveOf_nodup _ _
  have hin : (ts.flatMap Tree.inner).Nodup := hinner.nodup_iff.2 List.nodup_range'
  rw [← S.roots] at hr
  obtain ⟨t, ht, rfl⟩ := List.mem_map.1 hr
  have hroots : s'.roots.Nodup := by
    rw [← S.roots]
    exact Tree.roots_nodup hroot hin
  have hti : t.inner.Nodup := by
    obtain ⟨t1, t2, rfl⟩ := List.append_of_mem ht
    rw [List.flatMap_append, List.nodup_append, List.flatMap_cons, List.nodup_append] at hin
    exact hin.2.1.1
  refine ⟨t.size + 1, Search.first_tree_answer h.wf hk hM S hq ht ((hroot t ht).nodes_nodup hti hlive) ?_ hroots ?_ h0 ?_ hrun (Nat.lt_succ_self _)⟩
  · exact inner_margins S hinner hfin
  · intro u hu
    exact hmin _ (by rw [← S.roots]; exact List.mem_map_of_mem hu)
  · exact le_trans hb (by exact_mod_cast (hroot t ht).items_length_ge)

/-! ### concrete case -/

/-- Two trees over the three items of `groupAdds`, and finite margins of the query at their inner nodes. -/
def twoTrees {c : Cfg} (q : List c.N.V) (s' : Idx c) : Bool :=
  decide (s'.roots = [20, 22] ∧ s'.nItems = 19 ∧ s'.nNodes = 25 ∧ c.L.K < ndAt c.L s'.alloc.data 20 ∧
    ([19, 20, 21, 22].all fun i => !(decide (c.L.K < ndAt c.L s'.alloc.data i)) ||
      okAnd (fun y => c.N.lt y c.N.inf && c.N.lt (c.N.neg y) c.N.inf) (c.D.margin s'.alloc.data (i * c.L.nodeSize) q)) = true ∧
    okAnd (fun y => c.N.lt y c.N.zero) (c.D.margin s'.alloc.data (20 * c.L.nodeSize) q) = true ∧
    answerIds (Search.run c 100 s'.bmem s'.nItems s'.roots q 1 (-1) s'.createContext) = some [0])

def twoTreesWith (add mul div : BitVec 32 → BitVec 32 → BitVec 32) : Bool :=
  okAnd (twoTrees (c := alt32With add mul div 16) eastVec) (made (alt32With add mul div 16) false groupAdds 2)

theorem twoTrees_checked : twoTreesWith add32S mul32S div32S = true := by decide +kernel

/-- C64 and C71: an index with two trees for which all hypotheses of the theorems above hold.  Item 1 is at (1, 0, …), item 0 at the
origin, item 18 at (-1, 0, …).  Asked for the one nearest neighbour of (1, 0, …) with the default budget of 2, the index answers with item 0,
which lies on the far side of the root of the first tree; item 1 is not seen. -/
theorem C64_C71_case : ∃ s s', Session (alt32 16) 1 .single groupAdds 2 1 s s' ∧
    SplitsKept (alt32 16) 1 .single (slotCount groupAdds) 2 1 ∧ (alt32 16).N.KeyLaws ∧ MinKeys (alt32 16) ∧
    GoodQuery (alt32 16) eastVec ∧ lastAdded groupAdds 1 = some eastVec ∧ s'.roots = [20, 22] ∧ (1 : Int) * s'.roots.length ≤ (addedIds groupAdds).length ∧
    ∀ w, FiniteMargins s' w eastVec ∧ OrdinaryMargins s' w eastVec ∧ (alt32 16).L.K < ndAt (alt32 16).L (s'.mem w).get 20 ∧
      ieee32.lt (marginOf (alt32 16) (s'.mem w) eastVec 20) ieee32.zero = true ∧
      ∃ ds o, s'.getNnsByVector 100 w eastVec 1 (-1) s'.createContext = .ok ([0], ds, o) := by
  have key : twoTreesWith ieee32.add ieee32.mul ieee32.div = true := fast32 twoTreesWith twoTrees_checked
  unfold twoTreesWith at key
  obtain ⟨s, s', h, hp⟩ := made_okAnd (c := alt32 16) (r := false) (adds := groupAdds) (trees := 2) (twoTrees (c := alt32 16) eastVec)
    (alt32_wf (by decide)) (legalAdds_of (by decide +kernel)) (by decide +kernel) key
  obtain ⟨h1, h2, h3, h4, h5, h6, h7⟩ := of_decide_eq_true hp
  refine ⟨s, s', h, splitsKept_of_length h.wf (by decide) h.fits, ieee32_keyLaws, angular_minKeys,
    ⟨rfl, angular_marginOk rfl (by decide)⟩, by decide +kernel, h1, ?_, fun w => ?_⟩
  · rw [h1]; decide +kernel
  · obtain ⟨N0, B, _⟩ := h.built
    have h0 : 0 < s'.nNodes := by omega
    obtain ⟨hm, -⟩ := B.mem_eq w h0
    rw [hm]
    have hfin : FiniteMargins s' w eastVec := by
      intro i i1 i2 i3
      rw [hm] at i3 ⊢
      rw [h1] at i2
      simp only [List.length_cons, List.length_nil] at i2
      have hi : i ∈ [19, 20, 21, 22] := by
        simp; omega
      have := List.all_eq_true.1 h5 i hi
      rw [Bool.or_eq_true] at this
      rcases this with h | h
      · have h : ndAt (alt32 16).L s'.alloc.data i ≤ (alt32 16).L.K := by simpa using h
        exact absurd (show (alt32 16).L.K < ndAt (alt32 16).L s'.alloc.data i from i3) (Nat.not_lt.2 h)
      · unfold okAnd at h
        split at h
        · next y hy =>
          rw [Bool.and_eq_true] at h
          exact ⟨y, hy, h⟩
        · cases h
    refine ⟨hfin, h.ordinaryMargins (splitsKept_of_length h.wf (by decide) h.fits) ieee32_keyLaws hfin, h4, ?_, ?_⟩
    · unfold okAnd at h6
      split at h6
      · next y hy =>
        have e : marginOf (alt32 16) s'.alloc.block eastVec 20 = y := by
          unfold marginOf
          have hy' : (alt32 16).D.margin s'.alloc.block.get (20 * (alt32 16).L.nodeSize) eastVec = .ok y := hy
          rw [hy']
        rw [e]; exact h6
      · cases h6
    · obtain ⟨d1, o1, e1⟩ := answerIds_some h7
      exact ⟨d1, o1, (B.search w h0 _ _ _ _ _).trans e1⟩

end Annoy
