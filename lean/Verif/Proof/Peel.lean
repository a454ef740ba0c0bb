import Verif.Proof.DataBlind
import Verif.Proof.BuildAll
import Verif.Proof.SearchRun
/-!
A generator that splits one or two items off at a time: the trees it leads to, node by node; and how many steps a search takes.
-/
namespace Annoy

/-! ### the least number of pops -/

namespace Search
variable {c : Cfg}

/-- A search that does not exhaust its budget pops every node of every tree. -/
theorem collect_work (hc : c.WF) {mem : Block} {n : Nat} {query : List c.N.V} {budget : Int} (fuel : Nat) :
    ∀ {q : List (c.N.V × Nat)} {qt : List (c.N.V × Tree)} {acc col : List Nat}, q.Perm (qt.map key) →
    (∀ p ∈ qt, Walkable c mem n p.2) → collect mem n query budget fuel q acc = .ok col → (col.length : Int) < budget → work qt < fuel := by
  induction fuel with
  | zero => intro q qt acc col _ _ h; cases h
  | succ fuel ih =>
    intro q qt acc col hq hw h hlt
    unfold collect at h
    by_cases h1 : (acc.length : Int) < budget
    · rw [if_pos h1] at h
      cases hp : Heap.pop (pairLess c.N) q with
      | none =>
        have := (Heap.pop_none _ _).1 hp
        subst this
        have : qt = [] := List.map_eq_nil_iff.1 hq.symm.eq_nil
        subst this
        simp [work]
      | some v =>
        obtain ⟨⟨d, i⟩, q'⟩ := v
        obtain ⟨⟨d', t⟩, qt', k1, k2, k3⟩ := perm_map_cons ((Heap.pop_perm _ _ _ _ hp).trans hq)
        unfold key at k2
        simp only [Prod.mk.injEq] at k2
        obtain ⟨rfl, rfl⟩ := k2
        have hwt : Walkable c mem n t := hw (d', t) (k1.symm.subset (by simp))
        have hw' : ∀ p ∈ qt', Walkable c mem n p.2 := fun p hp => hw p (k1.symm.subset (by simp [hp]))
        rw [work_perm k1, work_cons]
        dsimp only
        rw [hp] at h
        simp only [hwt.root, bind, Except.bind] at h
        have hh := hwt.holds
        generalize hi : t.root = i0 at h
        cases t with
        | item i =>
          change i = i0 at hi
          subst hi
          have hnd : Node.nDesc c.L mem.get (i * c.L.nodeSize) = 1 := hh.2
          rw [if_pos ⟨hnd, hh.1⟩] at h
          have := ih k3 hw' h hlt
          simp only [Tree.size]; omega
        | hole i =>
          have hh : ndAt c.L mem.get i = 0 := hh
          have e0 : Node.nDesc c.L mem.get (i * c.L.nodeSize) = 0 := hh
          change i = i0 at hi
          subst hi
          rw [if_neg (by omega), if_pos (by omega)] at h
          have := ih k3 hw' h hlt
          simp only [Tree.size]; omega
        | bucket i ids =>
          obtain ⟨g1, g2, g3⟩ := hh
          change i = i0 at hi
          subst hi
          have g2' : Node.nDesc c.L mem.get (i * c.L.nodeSize) ≤ c.L.K := g2
          rw [if_neg (fun q => g1 ⟨q.2, q.1⟩), if_pos g2'] at h
          have := ih k3 hw' h hlt
          simp only [Tree.size]; omega
        | split i l r =>
          obtain ⟨g1, g2, g3, g4, g5⟩ := hh
          have hK := hc.layout.K_ge
          change i = i0 at hi
          subst hi
          have g1' : c.L.K < Node.nDesc c.L mem.get (i * c.L.nodeSize) := g1
          rw [if_neg (by omega), if_neg (by omega)] at h
          cases hx : c.D.margin mem.get (i * c.L.nodeSize) query with
          | error e => rw [hx] at h; cases h
          | ok x =>
            rw [hx] at h
            dsimp only at h
            have hn := hwt.nodes
            simp only [Tree.nodes, List.mem_cons, List.mem_append] at hn
            have := ih (qt := (c.D.pqDistance d' x .left, l) :: (c.D.pqDistance d' x .right, r) :: qt') (by
                refine (Heap.push_perm _ _ _).trans ?_
                have e1 : key (c.D.pqDistance d' x .left, l)
                    = (c.D.pqDistance d' x .left, Node.child c.L mem.get (i * c.L.nodeSize) 0) :=
                  congrArg _ g2.symm
                have e2 : key (c.D.pqDistance d' x .right, r)
                    = (c.D.pqDistance d' x .right, Node.child c.L mem.get (i * c.L.nodeSize) 1) :=
                  congrArg _ g3.symm
                rw [List.map_cons, List.map_cons, e1, e2]
                exact List.Perm.cons _ ((Heap.push_perm _ _ _).trans (List.Perm.cons _ k3))) (by
                intro p hp
                rcases List.mem_cons.1 hp with rfl | hp
                · exact ⟨g4, fun i hi => hn i (Or.inr (Or.inl hi))⟩
                · rcases List.mem_cons.1 hp with rfl | hp
                  · exact ⟨g5, fun i hi => hn i (Or.inr (Or.inr hi))⟩
                  · exact hw' p hp) h hlt
            rw [work_cons, work_cons] at this
            dsimp only at this
            simp only [Tree.size]
            omega
    · rw [if_neg h1] at h
      cases h
      omega

/-- The same for a query: with room and budget for everything, an answer needs more steps than there are nodes to visit. -/
theorem run_work (hc : c.WF) {mem : Block} {n : Nat} {roots : List Nat} {m : Nat → Option (List c.N.V)} {ts : List Tree}
    (h : Searchable c mem n roots m ts) {query : List c.N.V} (hm : MarginOk c query) {k b : Int} (hb : b ≠ -1)
    (hbig : ((ts.flatMap Tree.items).length : Int) < b) {fuel : Nat} {ctx : Ctx c} {x} (hr : run c fuel mem n roots query k b ctx = .ok x) :
    Tree.sizes ts < fuel := by
  obtain ⟨col, h1, -⟩ := collect_of_run hr
  rw [if_neg hb] at h1
  obtain ⟨done, rest, d1, d2, -⟩ := candidates hc h hm b (Nat.lt_succ_self (Tree.sizes ts))
  have e := collect_det h1 d1
  have hl := (done_items d2).length_eq
  rw [List.length_append] at hl
  have hq : (initQueue c roots).Perm ((ts.map fun t => (c.D.pqInitialValue, t)).map key) := by
    refine (initQueue_perm roots).trans ?_
    rw [← h.roots, List.map_map, List.map_map]
    exact List.Perm.refl _
  have := collect_work hc fuel hq (by
    intro p hp
    obtain ⟨t, ht, rfl⟩ := List.mem_map.1 hp
    exact h.walk t ht) h1 (by rw [e]; omega)
  unfold work at this
  rw [List.map_map] at this
  exact this

end Search

/-! ### the trees -/

/-- A distance and a generator with which every attempt puts the first `g l` of `l` items on the right side. -/
structure Peel (c : Cfg) (n : Nat) (g : Nat → Nat) (st : Nat → Nat → c.R.σ) (fin : c.N.V → Prop) (blank : Bytes → Prop) : Prop where
  fresh : blank zeros
  split : ∀ (d : Bytes) (addrs : List Nat) (r : c.R.σ) (m : Bytes), blank m → 2 ≤ addrs.length →
    ∃ m', c.D.createSplit d addrs r m = .ok (m', st 0 addrs.length) ∧ blank m'
  coin : ∀ p l, c.R.nextSide (st p l) = (if p < g l then .right else .left, st (p + 1) l)
  side : ∀ (m : Bytes) (v : List c.N.V) (r : c.R.σ), blank m → v.length = c.L.f → (∀ x ∈ v, fin x) →
    c.D.side m v r = .ok (c.R.nextSide r)
  le99 : ∀ m, c.L.K < m → m ≤ n → c.le99 (m - g m) (g m) = true
  few : ∀ m, g m = 1 ∨ g m = 2
  K : 4 ≤ c.L.K
  f : c.L.f = 2 * c.L.szIX + 1

namespace Idx
variable {c : Cfg} {n : Nat} {g : Nat → Nat} {st : Nat → Nat → c.R.σ} {fin : c.N.V → Prop} {blank : Bytes → Prop}

theorem peel_sides (P : Peel c n g st fin blank) {side : Nat → c.R.σ → Except Err (Side × c.R.σ)} (ids : List Nat)
    (h : ∀ j ∈ ids, ∀ r, side j r = .ok (c.R.nextSide r)) (l : Nat) : ∀ p,
    assignSides side ids (st p l) = .ok (ids.drop (g l - p), ids.take (g l - p), st (p + ids.length) l) := by
  induction ids with
  | nil => intro p; simp [assignSides]
  | cons j js ih =>
    intro p
    unfold assignSides
    simp only [h j (by simp), bind, Except.bind, P.coin, ih (fun i hi => h i (by simp [hi])) (p + 1)]
    by_cases hp : p < g l
    · rw [if_pos hp]
      obtain ⟨k, hk⟩ : ∃ k, g l - p = k + 1 := ⟨g l - p - 1, by omega⟩
      rw [show g l - (p + 1) = k by omega, hk]
      simp only [List.drop_succ_cons, List.take_succ_cons, List.length_cons]
      congr 4
      omega
    · rw [if_neg hp]
      rw [show g l - (p + 1) = 0 by omega, show g l - p = 0 by omega]
      simp only [List.drop_zero, List.take_zero, List.length_cons]
      congr 4
      omega

/-- The vectors of the items have ordinary components. -/
def Plain (fin : c.N.V → Prop) (s : Idx c) (n : Nat) : Prop := ∀ i, i < n → ∀ x ∈ Node.vec c.L c.C s.alloc.data (i * c.L.nodeSize), fin x

theorem Plain.ext (hL : c.L.Ok c.C.sz) {s s' : Idx c} (h : s.Plain fin n) (hs : s.BInv n) (he : Ext s s' n) : s'.Plain fin n := by
  intro i hi x hx
  refine h i hi x ?_
  rwa [Node.vec_congr (L := c.L) (C := c.C) (b' := s.alloc.data) (a' := i * c.L.nodeSize)] at hx
  intro j hj
  have h1 := he.sameNode (i := i) (by have := hs.n_le; omega)
  have h2 := hL.size_eq
  have := (h1 (c.L.offV + j) (by omega)).symm
  simpa [Nat.add_assoc] using this

theorem peel_choose (P : Peel c n g st fin blank) {s : Idx c} (hs : s.BInv n) (hp : s.Plain fin n) {ids : List Nat} (hids : ∀ i ∈ ids, i < n)
    (h1 : c.L.K < ids.length) (h2 : ids.length ≤ n) (rf : Nat) :
    ∃ m r, chooseSplit (rf + 1) s ids = .ok (m, ids.drop (g ids.length), ids.take (g ids.length), { s with rng := r }) := by
  have hK := P.K
  have hlt : ∀ i ∈ ids, i < s.nodesSize := fun i hi => by have := hids i hi; have := hs.n_le; have := hs.le_size; omega
  have hbm : s.bmem = s.alloc.block := by
    unfold bmem
    rw [hs.memOK.nodes (by have := hs.n_le; have := hs.le_size; omega)]
  have hadd : ids.mapM (getNode c.L s.bmem) = .ok (ids.map fun i => i * c.L.nodeSize) :=
    mapM_ok fun i hi => (hs.memOK.getNode (hlt i hi)).1
  have hside : ∀ m, blank m → ∀ j ∈ ids, ∀ r, sideOfItem c s.bmem m j r = .ok (c.R.nextSide r) := by
    intro m hm j hj r
    unfold sideOfItem
    rw [(hs.memOK.getNode (hlt j hj)).1]
    simp only [bind, Except.bind]
    rw [hbm]
    exact P.side m _ r hm (by simp [Node.vec]) (hp j (hids j hj))
  have htry : ∀ k m l rt r, blank m → ∃ m' r', trySplit c s.bmem (ids.map fun i => i * c.L.nodeSize) ids (k + 1) m l rt r =
      .ok (m', ids.drop (g ids.length), ids.take (g ids.length), r') := by
    intro k
    induction k with
    | zero =>
      intro m l rt r hm
      obtain ⟨m', e1, e2⟩ := P.split s.bmem.get (ids.map fun i => i * c.L.nodeSize) r m hm (by simp; omega)
      rw [List.length_map] at e1
      unfold trySplit
      simp only [e1, bind, Except.bind, peel_sides P ids (hside m' e2), Nat.sub_zero]
      split
      · exact ⟨_, _, rfl⟩
      · exact ⟨_, _, rfl⟩
    | succ k ih =>
      intro m l rt r hm
      obtain ⟨m', e1, e2⟩ := P.split s.bmem.get (ids.map fun i => i * c.L.nodeSize) r m hm (by simp; omega)
      rw [List.length_map] at e1
      unfold trySplit
      simp only [e1, bind, Except.bind, peel_sides P ids (hside m' e2), Nat.sub_zero]
      split
      · exact ⟨_, _, rfl⟩
      · exact ih m' _ _ _ e2
  obtain ⟨m', r', e⟩ := htry 2 zeros [] [] s.rng P.fresh
  refine ⟨m', r', ?_⟩
  unfold chooseSplit randomize
  have h99 := P.le99 ids.length h1 h2
  have hg := P.few ids.length
  simp only [hadd, e, bind, Except.bind, List.length_drop, List.length_take]
  rw [show min (g ids.length) ids.length = g ids.length by omega, if_pos h99]

/-- What is known of a node of a tree made by peeling. -/
inductive Part where
  | leaf (v : Nat)
  | fork (v l r : Nat)

def Part.Ok (L : Layout) (b : Bytes) : Part → Prop
  | .leaf v => ndAt L b v ≤ L.K
  | .fork v l r => L.K < ndAt L b v ∧ childAt L b v 0 = l ∧ childAt L b v 1 = r % 256

def Part.node : Part → Nat
  | .leaf v => v
  | .fork v _ _ => v

/-- The tree over the last `m` of `n` items, the next node number being `N`: root, next node number, and all nodes. -/
def plan (n K : Nat) (g : Nat → Nat) : Nat → Nat → Nat → Nat × Nat × List Part
  | 0, N, _ => (0, N, [])
  | fuel + 1, N, m =>
    if m ≤ K then (N, N + 1, [.leaf N])
    else
      let (cr, N1, ps) := if g m = 1 then (n - m, N, []) else (N, N + 1, [Part.leaf N])
      let (cl, N2, qs) := plan n K g fuel N1 (m - g m)
      (N2, N2 + 1, ps ++ qs ++ [.fork N2 cl cr])

theorem Part.Ok.ext (hL : c.L.Ok c.C.sz) {s s' : Idx c} (he : Ext s s' n) {p : Part} (h : p.Ok c.L s.alloc.data) (hp : p.node < s.nNodes) :
    p.Ok c.L s'.alloc.data := by
  cases p with
  | leaf v =>
    have hs := he.sameNode (i := v) hp
    show ndAt c.L s'.alloc.data v ≤ c.L.K
    rw [← hs.nd hL]; exact h
  | fork v l r =>
    have hs := he.sameNode (i := v) hp
    obtain ⟨h1, h2, h3⟩ := h
    refine ⟨?_, ?_, ?_⟩
    · rw [← hs.nd hL]; exact h1
    · rw [← hs.child hL (by omega)]; exact h2
    · rw [← hs.child hL (by omega)]; exact h3

theorem fork_reads {L : Layout} {sz : Nat} (hL : L.Ok sz) (hf : L.f = 2 * L.szIX + 1) {b m : Bytes} {v nd cl cr : Nat}
    (hnd : nd < L.range) (hcl : cl < L.range) (hcr : cr < L.range)
    (hb : ∀ j, j < L.nodeSize →
      b (v * L.nodeSize + j) = if j < L.f then Node.setChildren L (Node.setNDesc L m 0 nd) 0 [cl, cr] j else 0) :
    ndAt L b v = nd ∧ childAt L b v 0 = cl ∧ childAt L b v 1 = cr % 256 := by
  have h3 := hL.three_le
  refine ⟨?_, ?_, ?_⟩
  · rw [← Node.bucket_nDesc m 0 nd [cl, cr] hnd]
    refine Node.nDesc_congr fun j hj => ?_
    rw [hb j (by omega), if_pos (by omega), Nat.zero_add]
  · have := Node.child_setChildren (L := L) (Node.setNDesc L m 0 nd) 0 [cl, cr] 0 (by simp) (by simpa using hcl)
    simp only [List.getElem_cons_zero] at this
    rw [← this]
    refine Node.child_congr fun j hj => ?_
    rw [hb j (by omega), if_pos (by omega), Nat.zero_add]
  · have := Node.child_setChildren (L := L) (Node.setNDesc L m 0 nd) 0 [cl, cr] 1 (by simp) (by simpa using hcr)
    simp only [List.getElem_cons_succ, List.getElem_cons_zero] at this
    have e := readLE_cut 1 (b := b) (m := Node.setChildren L (Node.setNDesc L m 0 nd) 0 [cl, cr]) (a := v * L.nodeSize + L.szIX + 1 * L.szIX)
      (a' := 0 + L.szIX + 1 * L.szIX) (k := L.szIX) ?_
    · rw [show (2 : Nat) ^ (8 * 1) = 256 by norm_num] at e
      rw [← this]
      exact e
    · intro j hj
      have := hb (L.szIX + 1 * L.szIX + j) (by omega)
      rw [show v * L.nodeSize + L.szIX + 1 * L.szIX + j = v * L.nodeSize + (L.szIX + 1 * L.szIX + j) by omega, this]
      by_cases h0 : j < 1
      · rw [if_pos h0, if_pos (by omega)]
        congr 1
        omega
      · rw [if_neg h0, if_neg (by omega)]


theorem plan_grows (n K : Nat) (g : Nat → Nat) (fuel : Nat) : ∀ N m, N ≤ (plan n K g fuel N m).2.1 := by
  induction fuel with
  | zero => intro N m; exact le_rfl
  | succ fuel ih =>
    intro N m
    unfold plan
    by_cases h1 : m ≤ K
    · rw [if_pos h1]; exact Nat.le_succ N
    · rw [if_neg h1]
      by_cases h2 : g m = 1
      · rw [if_pos h2]
        dsimp only
        exact (ih N (m - g m)).trans (Nat.le_succ _)
      · rw [if_neg h2]
        dsimp only
        exact ((Nat.le_succ N).trans (ih (N + 1) (m - g m))).trans (Nat.le_succ _)

theorem plan_root (n K : Nat) (g : Nat → Nat) (fuel : Nat) : ∀ N m, 0 < fuel → (plan n K g fuel N m).1 < (plan n K g fuel N m).2.1 := by
  intro N m hf
  obtain ⟨k, rfl⟩ := Nat.exists_eq_succ_of_ne_zero hf.ne'
  unfold plan
  by_cases h1 : m ≤ K
  · rw [if_pos h1]; exact Nat.lt_succ_self N
  · rw [if_neg h1]
    dsimp only
    exact Nat.lt_succ_self _

theorem makeTree_many {rf fuel : Nat} {s : Idx c} {ids : List Nat} {isRoot : Bool} (h : ∀ j, ids ≠ [j]) :
    makeTree rf (fuel + 1) s ids isRoot =
      if ids.length ≤ c.L.K ∧ (isRoot = false ∨ s.nItems ≤ c.L.K ∨ ids.length = 1) then makeBucket s ids isRoot
      else (do
        let (m, l, rt, s) ← chooseSplit rf s ids
        let m := Node.setNDesc c.L m 0 (if isRoot then s.nItems else ids.length)
        if l.length > rt.length then
          let (cr, s) ← makeTree rf fuel s rt false
          let (cl, s) ← makeTree rf fuel s l false
          placeSplit s (Node.setChildren c.L m 0 [cl, cr])
        else
          let (cl, s) ← makeTree rf fuel s l false
          let (cr, s) ← makeTree rf fuel s rt false
          placeSplit s (Node.setChildren c.L m 0 [cl, cr])) := by
  conv => lhs; unfold makeTree
  split
  · next j => exact absurd rfl (h j)
  · rfl

theorem take_range'' : ∀ (k a m : Nat), k ≤ m → (List.range' a m).take k = List.range' a k
  | 0, _, _, _ => by simp
  | k + 1, a, 0, h => by omega
  | k + 1, a, m + 1, h => by
    rw [List.range'_succ, List.range'_succ, List.take_succ_cons, take_range'' k (a + 1) m (by omega)]

theorem peel_tree (hc : c.WF) (P : Peel c n g st fin blank) (rf fuel : Nat) : ∀ (s : Idx c) (m : Nat) (isRoot : Bool), s.BInv n → s.Plain fin n →
    3 ≤ m → m ≤ n → m ≤ fuel → (isRoot = true → m = n ∧ c.L.K < n) → c.L.Fits (plan n c.L.K g fuel s.nNodes m).2.1 →
    ∃ s', makeTree (rf + 1) fuel s (List.range' (n - m) m) isRoot = .ok ((plan n c.L.K g fuel s.nNodes m).1, s') ∧ Ext s s' n ∧
      s'.nNodes = (plan n c.L.K g fuel s.nNodes m).2.1 ∧
      ∀ p ∈ (plan n c.L.K g fuel s.nNodes m).2.2, p.node < s'.nNodes ∧ p.Ok c.L s'.alloc.data := by
  have hL := hc.layout
  have hK := P.K
  induction fuel with
  | zero => intro s m isRoot _ _ h3 _ hf; omega
  | succ fuel ih =>
    intro s m isRoot hs hp h3 hmn hf hroot hfits
    have hnot : ∀ j, List.range' (n - m) m ≠ [j] := fun j e => by
      have := congrArg List.length e
      simp at this; omega
    have hids : ∀ i ∈ List.range' (n - m) m, i < n := fun i hi => by
      have := List.mem_range'_1.1 hi; omega
    rw [makeTree_many hnot]
    simp only [List.length_range', hs.nItems]
    unfold plan at hfits ⊢
    by_cases h1 : m ≤ c.L.K
    · rw [if_pos h1] at hfits ⊢
      have : isRoot = false := by
        cases isRoot with
        | false => rfl
        | true =>
          have := hroot rfl
          omega
      subst this
      rw [if_pos ⟨h1, Or.inl rfl⟩]
      obtain ⟨s', e1, e2, e3, e4, -⟩ := makeBucket_spec hc hs (List.range' (n - m) m) false hfits (by simpa using h1) hids
      refine ⟨s', e1, e2, e3, ?_⟩
      intro p hp
      rw [List.mem_singleton.1 hp]
      refine ⟨?_, ?_⟩
      · show s.nNodes < s'.nNodes
        omega
      · show ndAt c.L s'.alloc.data s.nNodes ≤ c.L.K
        rw [e4]
        simpa using h1
    · rw [if_neg h1] at hfits ⊢
      rw [if_neg (fun q => h1 q.1)]
      obtain ⟨mm, r, e1⟩ := peel_choose P hs hp hids (by simpa using h1) (by simpa using hmn) rf
      simp only [List.length_range'] at e1
      have hg := P.few m
      have hd : (List.range' (n - m) m).drop (g m) = List.range' (n - (m - g m)) (m - g m) := by
        rw [List.drop_range']
        congr 1
        omega
      have ht : (List.range' (n - m) m).take (g m) = List.range' (n - m) (g m) := by
        exact take_range'' _ _ _ (by omega)
      rw [hd, ht] at e1
      simp only [e1, bind, Except.bind, List.length_range']
      rw [if_pos (show m - g m > g m by omega)]
      have hs0 : ({ s with rng := r } : Idx c).BInv n := hs.rng r
      have he0 : Ext s ({ s with rng := r } : Idx c) n := ⟨hs0, le_rfl, fun _ _ => rfl, rfl, rfl⟩
      have hp0 : ({ s with rng := r } : Idx c).Plain fin n := hp
      have hnd : (if isRoot then n else m) = m := by
        cases isRoot with
        | false => rfl
        | true =>
          have := (hroot rfl).1
          simp [this]
      obtain ⟨k, rfl⟩ : ∃ k, fuel = k + 1 := ⟨fuel - 1, by omega⟩
      -- the right child
      have hright : ∃ s1 cr N1 ps, (if g m = 1 then (n - m, s.nNodes, []) else (s.nNodes, s.nNodes + 1, [Part.leaf s.nNodes])) = (cr, N1, ps) ∧
          (c.L.Fits N1 → makeTree (rf + 1) (k + 1) ({ s with rng := r } : Idx c) (List.range' (n - m) (g m)) false = .ok (cr, s1) ∧
            Ext s s1 n ∧ s1.nNodes = N1 ∧ cr < N1 ∧ ∀ p ∈ ps, p.node < s1.nNodes ∧ p.Ok c.L s1.alloc.data) := by
        rcases hg with hg | hg
        · refine ⟨{ s with rng := r }, n - m, s.nNodes, [], by rw [if_pos hg], fun _ => ⟨?_, he0, rfl, ?_, by simp⟩⟩
          · rw [hg]; rfl
          · have := hs.n_le; omega
        · by_cases hfit : c.L.Fits (s.nNodes + 1)
          · obtain ⟨s', b1, b2, b3, b4, -⟩ := makeBucket_spec hc hs0 (List.range' (n - m) 2) false hfit (by simp; omega) (fun x hx => by
              have := List.mem_range'_1.1 hx; omega)
            refine ⟨s', s.nNodes, s.nNodes + 1, [Part.leaf s.nNodes], by rw [if_neg (by omega)], fun _ => ⟨?_, he0.trans b2, b3, by omega, ?_⟩⟩
            · rw [hg, makeTree_many (fun j e => by simp [List.range'] at e), if_pos ⟨by simp; omega, Or.inl rfl⟩]
              exact b1
            · intro p hp
              rw [List.mem_singleton.1 hp]
              refine ⟨?_, ?_⟩
              · show s.nNodes < s'.nNodes
                rw [b3]; exact Nat.lt_succ_self _
              · show ndAt c.L s'.alloc.data s.nNodes ≤ c.L.K
                refine le_trans (le_of_eq b4) ?_
                simp; omega
          · exact ⟨s, s.nNodes, s.nNodes + 1, [Part.leaf s.nNodes], by rw [if_neg (by omega)], fun q => absurd q hfit⟩
      obtain ⟨s1, cr, N1, ps, q1, q2⟩ := hright
      rw [q1] at hfits ⊢
      dsimp only at hfits ⊢
      have hgrow := plan_grows n c.L.K g (k + 1) N1 (m - g m)
      obtain ⟨q2, q3, q4, q5, q6⟩ := q2 (hfits.mono (hgrow.trans (Nat.le_succ _)))
      rw [q2]
      dsimp only
      subst q4
      obtain ⟨s2, w1, w2, w3, w4⟩ := ih s1 (m - g m) false q3.inv (hp.ext hL hs q3) (by omega) (by omega) (by omega) (by simp) (hfits.mono (Nat.le_succ _))
      rw [w1]
      dsimp only
      have hcl := plan_root n c.L.K g (k + 1) s1.nNodes (m - g m) (Nat.succ_pos k)
      rw [← w3] at hfits hcl ⊢
      generalize hcle : (plan n c.L.K g (k + 1) s1.nNodes (m - g m)).1 = cl at *
      obtain ⟨s3, z1, z2, z3, z4, -⟩ := placeSplit_spec hc w2.inv (Node.setChildren c.L (Node.setNDesc c.L mm 0 m) 0 [cl, cr]) hfits
      refine ⟨s3, by rw [hs.nItems, hnd]; exact z1, (q3.trans w2).trans z2, z3, ?_⟩
      have hrange := hfits.lt_range hL.nodeSize_pos
      have hn2 := w2.inv.n_le
      intro p hp
      rcases List.mem_append.1 hp with hp | hp
      · rcases List.mem_append.1 hp with hp | hp
        · obtain ⟨x1, x2⟩ := q6 p hp
          have y1 : p.node < s2.nNodes := lt_of_lt_of_le x1 w2.nNodes
          exact ⟨by omega, (x2.ext hL w2 x1).ext hL z2 y1⟩
        · obtain ⟨x1, x2⟩ := w4 p hp
          exact ⟨by omega, x2.ext hL z2 x1⟩
      · rw [List.mem_singleton.1 hp]
        refine ⟨?_, ?_⟩
        · show s2.nNodes < s3.nNodes
          omega
        · obtain ⟨y1, y2, y3⟩ := fork_reads hL P.f (m := mm) (b := s3.alloc.data) (v := s2.nNodes) (nd := m) (cl := cl) (cr := cr)
            (by omega) (by omega) (by have := w2.nNodes; omega) z4
          exact ⟨by omega, y2, y3⟩

/-- `k` such trees, one after the other: roots, next node number, and all nodes. -/
def plans (n K : Nat) (g : Nat → Nat) : Nat → Nat → List Nat × Nat × List Part
  | 0, N => ([], N, [])
  | k + 1, N =>
    let (r, N1, ps) := plan n K g n N n
    let (rs, N2, qs) := plans n K g k N1
    (r :: rs, N2, ps ++ qs)

theorem plans_grows (n K : Nat) (g : Nat → Nat) (k : Nat) : ∀ N, N ≤ (plans n K g k N).2.1 := by
  induction k with
  | zero => intro N; exact le_rfl
  | succ k ih =>
    intro N
    unfold plans
    dsimp only
    exact (plan_grows n K g n N n).trans (ih _)

theorem plans_length (n K : Nat) (g : Nat → Nat) (k : Nat) : ∀ N, (plans n K g k N).1.length = k := by
  induction k with
  | zero => intro N; rfl
  | succ k ih =>
    intro N
    unfold plans
    dsimp only
    rw [List.length_cons, ih]

theorem peel_loop (hc : c.WF) (P : Peel c n g st fin blank) (rf : Nat) {m : Nat → Option (List c.N.V)} (hlive : liveOf m n = List.range n)
    (hn : c.L.K < n) (T k : Nat) : ∀ (s : Idx c) (done : List Nat), s.BInv n → s.Plain fin n → s.Slots m n → done.length + k = T →
    c.L.Fits (plans n c.L.K g k s.nNodes).2.1 →
    ∃ s', threadLoop (rf + 1) n (T : Int) (k + 1) s done = .ok (done ++ (plans n c.L.K g k s.nNodes).1, s') ∧ Ext s s' n ∧
      s'.nNodes = (plans n c.L.K g k s.nNodes).2.1 ∧
      ∀ p ∈ (plans n c.L.K g k s.nNodes).2.2, p.node < s'.nNodes ∧ p.Ok c.L s'.alloc.data := by
  have hL := hc.layout
  have hK := P.K
  induction k with
  | zero =>
    intro s done hs hp hsl hd hfits
    unfold threadLoop plans
    rw [if_pos (by rw [if_neg (by omega : ¬(T : Int) = -1)]; omega)]
    exact ⟨s, by simp, Ext.refl hs, rfl, by simp⟩
  | succ k ih =>
    intro s done hs hp hsl hd hfits
    unfold threadLoop
    rw [if_neg (by rw [if_neg (by omega : ¬(T : Int) = -1)]; omega)]
    unfold plans at hfits ⊢
    dsimp only at hfits ⊢
    have hli := liveItems_eq hs hsl
    obtain ⟨s1, h1, h2, h3, h4⟩ := peel_tree hc P rf n s n true hs hp (by omega) le_rfl le_rfl (fun _ => ⟨rfl, hn⟩)
      (hfits.mono (plans_grows n c.L.K g k _))
    rw [Nat.sub_self, ← List.range_eq_range'] at h1
    simp only [hli, hlive, bind, Except.bind, h1]
    rw [← h3] at hfits ⊢
    obtain ⟨s2, g1, g2, g3, g4⟩ := ih s1 (done ++ [(plan n c.L.K g n s.nNodes n).1]) h2.inv (hp.ext hL hs h2)
      (hsl.ext hL hs.n_le h2) (by simp; omega) hfits
    refine ⟨s2, by rw [g1]; simp, h2.trans g2, g3, ?_⟩
    intro p hp
    rcases List.mem_append.1 hp with hp | hp
    · obtain ⟨x1, x2⟩ := h4 p hp
      exact ⟨lt_of_lt_of_le x1 g2.nNodes, x2.ext hL g2 x1⟩
    · exact g4 p hp

/-- The last part of `Build` changes no node. -/
theorem buildFinish_nodes (hc : c.WF) {s2 s' : Idx c} (hi : s2.BInv n) (hr : ∀ r ∈ s2.roots, r < s2.nNodes)
    (hfit : c.L.Fits (s2.nNodes + s2.roots.length)) (h : buildFinish s2 = .ok s') :
    s'.nNodes = s2.nNodes + s2.roots.length ∧ ∀ x, x < s2.nNodes * c.L.nodeSize → s'.alloc.data x = s2.alloc.data x := by
  have hL := hc.layout
  have hw : c.L.wrap (s2.nNodes + s2.roots.length) = s2.nNodes + s2.roots.length := c.L.wrap_eq (hfit.lt_range hL.nodeSize_pos)
  obtain ⟨hm4, hn4, hn4', hd4, sz, nd, al, he4⟩ := allocateSize_spec hL hi.memOK hfit hi.zero
    (Nat.mul_le_mul_right c.L.nodeSize hi.le_size)
  unfold buildFinish at h
  rw [hw] at h
  generalize hs4 : s2.allocateSize (s2.nNodes + s2.roots.length) = s4 at *
  have e3 : s4.roots = s2.roots := by rw [he4]
  have e4 : s4.nNodes = s2.nNodes := by rw [he4]
  obtain ⟨s5, C1, ⟨d, C2⟩, C3, -⟩ := copyRoots_spec hc s2.roots s4 s2.nNodes hm4 hn4 hr
  simp only [e3, e4, C1, bind, Except.bind] at h
  split at h
  · cases h
  · cases h
    refine ⟨?_, ?_⟩
    · have a : s5.nNodes = s2.nNodes := by rw [C2]; exact e4
      have b : s5.roots = s2.roots := by rw [C2]; exact e3
      dsimp only
      rw [a, b, hw]
    · intro x hx
      show s5.alloc.data x = _
      rw [C3 x (Or.inl hx), hd4]

/-- Where nothing was written a node stays what it was. -/
theorem Part.Ok.frame (hL : c.L.Ok c.C.sz) {N : Nat} {b b' : Bytes} (hb : ∀ x, x < N * c.L.nodeSize → b' x = b x) {p : Part} (h : p.Ok c.L b)
    (hp : p.node < N) : p.Ok c.L b' := by
  have hs : SameNode c.L b b' p.node := fun j hj => (hb _ (node_lt hp hj)).symm
  cases p with
  | leaf v =>
    have e := hs.nd hL
    change ndAt c.L b v = ndAt c.L b' v at e
    show ndAt c.L b' v ≤ c.L.K
    rw [← e]; exact h
  | fork v l r =>
    obtain ⟨h1, h2, h3⟩ := h
    have e := hs.nd hL
    have e0 := hs.child hL (k := 0) (by omega)
    have e1 := hs.child hL (k := 1) (by omega)
    change ndAt c.L b v = ndAt c.L b' v at e
    change childAt c.L b v 0 = childAt c.L b' v 0 at e0
    change childAt c.L b v 1 = childAt c.L b' v 1 at e1
    exact ⟨by rw [← e]; exact h1, e0.symm.trans h2, e1.symm.trans h3⟩

theorem peel_build (hc : c.WF) (P : Peel c n g st fin blank) {s : Idx c} {m : Nat → Option (List c.N.V)} (hs : s.ItemInv m n)
    (hb : s.built = false) (hr : s.roots = []) (hall : ∀ i, i < n → ∃ v, m i = some v ∧ ∀ x ∈ v, fin x) (hn : c.L.K < n) (T : Nat)
    (hfit : c.L.Fits (buildBound n T)) (hfits : c.L.Fits ((plans n c.L.K g T n).2.1 + T)) :
    ∃ s', build 1 n (T + 1) T s = .ok s' ∧ s'.roots = (plans n c.L.K g T n).1 ∧ s'.nNodes = (plans n c.L.K g T n).2.1 + T ∧
      ∀ p ∈ (plans n c.L.K g T n).2.2, p.Ok c.L s'.alloc.data := by
  have hL := hc.layout
  obtain ⟨s1, hstart, hinv1, hsl1, hn1, _, hr1, _, hitems1, hgaps1, hpre⟩ := buildStart_spec hc hs hb
  have hlive : liveOf m n = List.range n := by
    unfold liveOf
    rw [List.filter_eq_self]
    intro i hi
    obtain ⟨v, e, -⟩ := hall i (List.mem_range.1 hi)
    rw [e]; rfl
  have hp1 : s1.Plain fin n := by
    intro i hi
    obtain ⟨v, e, h1⟩ := hall i hi
    rw [(hitems1 i v e).vec]
    exact h1
  have hnT : (T : Int) ≠ -1 := by omega
  obtain ⟨s2, h1, h2, h3, h4⟩ := peel_loop hc P 0 hlive hn T T s1 [] hinv1 hp1 hsl1 (by simp)
    (by rw [hn1]; exact hfits.mono (Nat.le_add_right _ _))
  rw [hn1] at h1 h3 h4
  rw [List.nil_append] at h1
  have hlen := plans_length n c.L.K g T n
  generalize hpl : plans n c.L.K g T n = pl at *
  obtain ⟨rs, N2, ps⟩ := pl
  dsimp only at *
  set B := n + T * cap (liveOf m n).length with hB
  have hlen2 : (liveOf m n).length = n := by rw [hlive]; simp
  have hBle : B ≤ buildBound n T := by
    unfold buildBound
    rw [if_neg hnT, hB, hlen2]
    have : T * cap n ≤ T * (2 * n + 2) := Nat.mul_le_mul_left _ (by unfold cap; omega)
    simp only [Int.toNat_natCast]
    omega
  obtain ⟨T1, T2, T3, T4, T5, new, T6, T7, T8, T9, T11, T10⟩ := threadLoop_spec hc 1 _ n T m B (hfit.mono hBle)
    (fun _ => by rw [hB]; simp) (fun ht => absurd ht hnT) _ s1 [] rs s2 hinv1 hsl1
    (by simp; omega) (by rw [hB]; omega) (by simp; omega) h1
  simp only [List.nil_append] at T6
  subst T6
  have hroots2 : s2.roots = [] := by rw [T1.roots, hr1]; exact hr
  have hpre1 : ∀ x, x < n * c.L.nodeSize → s2.alloc.data x = s1.alloc.data x := by
    intro x hx
    rw [T1.frame x (by rw [hn1]; exact hx)]
  have hinv2 : ({ s2 with roots := rs } : Idx c).BInv n := ⟨⟨T1.inv.memOK.fits, T1.inv.memOK.size, T1.inv.memOK.nodes⟩, T1.inv.loaded,
        T1.inv.nItems, T1.inv.n_le, T1.inv.le_size, T1.inv.zero⟩
  have G : Grown ({ s2 with roots := rs } : Idx c) m n := by
    refine ⟨hinv2, hs.bound, hs.top, ?_, ?_, ?_, ?_, ?_, ?_, ?_, ?_, hpre.congr hpre1⟩
    · intro i v hi
      exact (hitems1 i v hi).congr hc.layout fun j hj => hpre1 _ (node_lt (hs.bound i v hi) hj)
    · intro i hi hmi j hj hj'
      show s2.alloc.data _ = 0
      rw [hpre1 _ (node_lt hi hj)]
      exact hgaps1 i hi hmi j hj hj'
    · intro r hr
      have := T7 r hr
      refine ⟨by omega, this.2.1⟩
    · intro hne
      exact List.mem_of_getLast? (T8 hne)
    · intro hne
      exact (T9 hne).trans hn1
    · exact fun r hr => (T7 r hr).2.2
    · rw [hn1] at T11; exact T11
    · rw [hn1] at T10; exact T10
  have hf2 : c.L.Fits (({ s2 with roots := rs } : Idx c).nNodes + ({ s2 with roots := rs } : Idx c).roots.length) := by
    show c.L.Fits (s2.nNodes + rs.length)
    rw [h3, hlen]; exact hfits
  obtain ⟨s6, F1, F2, F3, F4⟩ := buildFinish_spec hc G hf2
  obtain ⟨W1, W2⟩ := buildFinish_nodes hc hinv2 (fun r hr => (T7 r hr).2.1) hf2 F1
  refine ⟨s6, ?_, F3, ?_, ?_⟩
  · unfold build threadBuild
    simp only [bind, Except.bind, hstart, h1, hroots2, List.nil_append]
    exact F1
  · rw [W1]
    show s2.nNodes + rs.length = _
    rw [h3, hlen]
  · intro p hp
    obtain ⟨x1, x2⟩ := h4 p hp
    exact x2.frame hL W2 x1

/-! ### how large the trees look to a search -/

/-- At least as many nodes hang below `v`. -/
def weigh (n : Nat) (ps : List Part) : Nat → Nat → Nat
  | 0, _ => 0
  | fuel + 1, v =>
    if v < n then 1
    else
      match ps.find? fun p => p.node == v with
      | none => 0
      | some (.leaf _) => 1
      | some (.fork _ l r) => 1 + weigh n ps fuel l + weigh n ps fuel (r % 256)

theorem weigh_le {mem : Block} {ps : List Part} (hps : ∀ p ∈ ps, p.Ok c.L mem.get) (fuel : Nat) : ∀ {t : Tree},
    Search.Walkable c mem n t → weigh n ps fuel t.root ≤ t.size := by
  have hpos : ∀ t : Tree, 1 ≤ t.size := by intro t; cases t <;> simp only [Tree.size] <;> omega
  induction fuel with
  | zero => intro t _; exact Nat.zero_le _
  | succ fuel ih =>
    intro t ht
    unfold weigh
    by_cases hv : t.root < n
    · rw [if_pos hv]; exact hpos t
    · rw [if_neg hv]
      cases hf : ps.find? fun p => p.node == t.root with
      | none => exact Nat.zero_le _
      | some p =>
        have h1 := hps p (List.mem_of_find?_eq_some hf)
        have h2 : p.node = t.root := by simpa using List.find?_some hf
        cases p with
        | leaf v => exact hpos t
        | fork v l r =>
          change v = t.root at h2
          subst h2
          obtain ⟨a1, a2, a3⟩ := h1
          dsimp only
          have hh := ht.holds
          have hn := ht.nodes
          generalize hroot : t.root = i at *
          cases t with
          | item i =>
            change i = _ at hroot
            subst hroot
            exact absurd hh.1 hv
          | hole i =>
            change i = _ at hroot
            subst hroot
            have : ndAt c.L mem.get i = 0 := hh
            omega
          | bucket i ids =>
            change i = _ at hroot
            subst hroot
            have : ndAt c.L mem.get i ≤ c.L.K := hh.2.1
            omega
          | split i tl tr =>
            change i = _ at hroot
            subst hroot
            obtain ⟨g1, g2, g3, g4, g5⟩ := hh
            simp only [Tree.nodes, List.mem_cons, List.mem_append] at hn
            have e1 : tl.root = l := by rw [← a2]; exact g2.symm
            have e2 : tr.root = r % 256 := by rw [← a3]; exact g3.symm
            have b1 := ih (t := tl) ⟨g4, fun i hi => hn i (Or.inr (Or.inl hi))⟩
            have b2 := ih (t := tr) ⟨g5, fun i hi => hn i (Or.inr (Or.inr hi))⟩
            rw [e1] at b1
            rw [e2] at b2
            simp only [Tree.size]
            omega

end Idx
end Annoy
