import Verif.Proof.RootOrder
import Verif.Props.BestFirst
import Verif.Props.SaveLoadWitness
/-!
# Saving and loading keeps the answers of every search (C28, indexes built by one worker)

`Load` finds copies of the roots instead of the roots.  When one worker built the index the copies are in the same order, and a search
through copies finds what a search through the originals finds.
-/
namespace Annoy

/-! ### walks through copies -/

section
variable {N : Num} {x : Nat → N.V}

/-- `t'` is `t` with another number at the root, an inner node with the same margin. -/
def CopyOf (x : Nat → N.V) (t t' : Tree) : Prop := ∃ i i' l r, t = .split i l r ∧ t' = .split i' l r ∧ x i = x i'

theorem CopyOf.items {t t' : Tree} (h : CopyOf x t t') : t.items = t'.items := by
  obtain ⟨i, i', l, r, rfl, rfl, -⟩ := h; rfl

theorem forall₂_mem_right {α β : Type} {R : α → β → Prop} {l : List α} {l' : List β} (h : List.Forall₂ R l l') {b : β} (hb : b ∈ l') :
    ∃ a ∈ l, R a b := by
  induction h with
  | nil => simp at hb
  | cons h1 h2 ih =>
    rcases List.mem_cons.1 hb with rfl | hb
    · exact ⟨_, by simp, h1⟩
    · obtain ⟨a, ha, hr⟩ := ih hb
      exact ⟨a, by simp [ha], hr⟩

/-- The part of a search that belongs to the first tree, and the rest. -/
theorem BestFirst.peel (hk : N.KeyLaws) {t : Tree} {rest : List Tree} {vs G : List (N.V × Tree)}
    (h : BestFirst N x (((t :: rest).map fun t => (N.inf, t))) vs G) (hx : ∀ u ∈ t :: rest, ∀ i ∈ u.splitNodes, N.Finite (x i))
    (hr : ∀ u ∈ rest, t.root < u.root) {budget : Int} (hs : StopsAt budget vs G) :
    ∃ va vr GA Gr, vs = va ++ vr ∧ BestFirst N x [(N.inf, t)] va GA ∧ StopsAt budget va GA ∧
      BestFirst N x (rest.map fun t => (N.inf, t)) vr Gr ∧ StopsAt (budget - (gathered va).length) vr Gr := by
  obtain ⟨va, vr, GA, i1, i2, i3⟩ := h.first_tree hk hx hr
  have hb : ∀ v1 e v2, va = v1 ++ e :: v2 → ((gathered v1).length : Int) < budget := by
    intro v1 e v2 hv
    exact hs.before v1 e (v2 ++ vr) (by rw [i1, hv]; simp)
  have hgv : gathered vs = gathered va ++ gathered vr := by rw [i1]; simp [gathered]
  rcases i3 with ⟨rfl, hG⟩ | ⟨rfl, hrest⟩
  · refine ⟨va, [], GA, rest.map fun t => (N.inf, t), i1, i2, ⟨?_, hb⟩, .stop (List.Perm.refl _), ?_, ?_⟩
    · rcases hs.finished with h | h
      · rw [h] at hG
        exact Or.inl (List.append_eq_nil_iff.1 hG.symm.eq_nil).1
      · rw [hgv] at h
        exact Or.inr (by simpa [gathered] using h)
    · rcases hs.finished with h | h
      · rw [h] at hG
        exact Or.inl (List.append_eq_nil_iff.1 hG.symm.eq_nil).2
      · rw [hgv] at h
        right
        simp [gathered] at h ⊢
        omega
    · intro v1 e v2 hv
      exact absurd hv (by simp)
  · refine ⟨va, vr, [], G, i1, i2, ⟨Or.inl rfl, hb⟩, hrest, ?_, ?_⟩
    · rcases hs.finished with h | h
      · exact Or.inl h
      · right
        rw [hgv, List.length_append] at h
        push_cast at h
        omega
    · intro v1 e v2 hv
      have := hs.before (va ++ v1) e v2 (by rw [i1, hv]; simp)
      have e2 : gathered (va ++ v1) = gathered va ++ gathered v1 := by simp [gathered]
      rw [e2, List.length_append] at this
      push_cast at this
      omega

/-- What one tree yields, and a copy of it. -/
theorem BestFirst.copy_one (hk : N.KeyLaws) {t t' : Tree} {vs vs' G G' : List (N.V × Tree)} (hc : CopyOf x t t')
    (hx : ∀ i ∈ t.splitNodes, N.Ordinary (x i)) (hn : t.nodes.Nodup) (h : BestFirst N x [(N.inf, t)] vs G)
    (h' : BestFirst N x [(N.inf, t')] vs' G') {budget : Int} (hs : StopsAt budget vs G) (hs' : StopsAt budget vs' G') :
    gathered vs = gathered vs' := by
  obtain ⟨i, i', l, r, rfl, rfl, hii⟩ := hc
  have single : ∀ {e f : N.V × Tree} {F' : List (N.V × Tree)}, [f].Perm (e :: F') → F' = [] ∧ e = f := by
    intro e f F' q
    have hF' : F' = [] := List.eq_nil_of_length_eq_zero (by simpa using q.length_eq.symm)
    subst hF'
    exact ⟨rfl, (List.singleton_perm_singleton.1 q).symm⟩
  have empty : ∀ {e : N.V × Tree} {G : List (N.V × Tree)}, [e].Perm G → StopsAt budget ([] : List (N.V × Tree)) G → budget ≤ 0 := by
    intro e G q s
    rcases s.finished with h | h
    · rw [h] at q
      exact absurd q.eq_nil (by simp)
    · simpa [gathered] using h
  have full : ∀ {e : N.V × Tree} {vs G : List (N.V × Tree)}, StopsAt budget (e :: vs) G → 0 < budget := by
    intro e vs G s
    simpa [gathered] using s.before [] e vs rfl
  cases h with
  | stop q =>
    cases h' with
    | stop q' => rfl
    | visit q' r' s' =>
      have := empty q hs
      have := full hs'
      omega
  | visit q rr s =>
    cases h' with
    | stop q' =>
      have := empty q' hs'
      have := full hs
      omega
    | visit q' rr' s' =>
      obtain ⟨rfl, rfl⟩ := single q
      obtain ⟨rfl, rfl⟩ := single q'
      rw [gathered_cons, gathered_cons]
      have e : opened N x (N.inf, .split i l r) = opened N x (N.inf, .split i' l r) := by
        simp only [opened, hii]
      rw [← e] at s'
      have drop : ∀ {f : N.V × Tree} {vs G : List (N.V × Tree)}, f.2.own = [] → StopsAt budget (f :: vs) G → StopsAt budget vs G := by
        intro f vs G hf s
        refine ⟨?_, fun v1 e v2 hv => ?_⟩
        · rcases s.finished with h | h
          · exact Or.inl h
          · rw [gathered_cons, hf] at h
            exact Or.inr (by simpa using h)
        · have := s.before (f :: v1) e v2 (by rw [hv]; rfl)
          rw [gathered_cons, hf] at this
          simpa using this
      have hF : KeysOk N x [(N.inf, Tree.split i l r)] := by
        intro e he
        rw [List.mem_singleton] at he
        subst he
        exact ⟨hk.inf_ordinary, hx⟩
      rw [s.unique hk s' (List.Perm.refl _) (hF.step hk (List.Perm.refl _)) (by
        simp only [List.append_nil]
        exact (hn.sublist (by simpa using opened_nodes (N := N) (x := x) (N.inf, Tree.split i l r))))
        (drop rfl hs) (drop rfl hs')]
      rfl

/-- What trees yield, and copies of them in the same order. -/
theorem BestFirst.copies (hk : N.KeyLaws) {ts ts' : List Tree} (hc : List.Forall₂ (CopyOf x) ts ts') :
    ∀ {vs vs' G G' : List (N.V × Tree)} {budget : Int}, (ts.map Tree.root).Pairwise (· < ·) → (ts'.map Tree.root).Pairwise (· < ·) →
    (∀ u ∈ ts, ∀ i ∈ u.splitNodes, N.Finite (x i)) → (∀ u ∈ ts, u.nodes.Nodup) →
    BestFirst N x (ts.map fun t => (N.inf, t)) vs G → BestFirst N x (ts'.map fun t => (N.inf, t)) vs' G' →
    StopsAt budget vs G → StopsAt budget vs' G' → gathered vs = gathered vs' := by
  induction hc with
  | nil =>
    intro vs vs' G G' budget _ _ _ _ h h' _ _
    rw [h.nil_left.1, h'.nil_left.1]
  | @cons t t' ts ts' hc hcs ih =>
    intro vs vs' G G' budget hr hr' hx hn h h' hs hs'
    rw [List.map_cons, List.pairwise_cons] at hr hr'
    have hx' : ∀ u ∈ t' :: ts', ∀ i ∈ u.splitNodes, N.Finite (x i) := by
      have : ∀ u' ∈ t' :: ts', ∃ u ∈ t :: ts, CopyOf x u u' := by
        intro u' hu'
        obtain ⟨u, hu, hc⟩ := forall₂_mem_right (.cons hc hcs) hu'
        exact ⟨u, hu, hc⟩
      intro u' hu' i hi
      obtain ⟨u, hu, j, j', l, r, rfl, rfl, e⟩ := this u' hu'
      simp only [Tree.splitNodes, List.mem_cons] at hi
      rcases hi with rfl | hi
      · rw [← e]; exact hx _ hu j (by simp [Tree.splitNodes])
      · exact hx _ hu i (by simp only [Tree.splitNodes, List.mem_cons]; exact Or.inr hi)
    obtain ⟨va, vr, GA, Gr, e1, a1, a2, a3, a4⟩ := h.peel hk hx (fun u hu => hr.1 _ (List.mem_map_of_mem hu)) hs
    obtain ⟨va', vr', GA', Gr', e1', b1, b2, b3, b4⟩ := h'.peel hk hx' (fun u hu => hr'.1 _ (List.mem_map_of_mem hu)) hs'
    have e := BestFirst.copy_one hk hc (fun i hi => (hk.lt_ordinary _ _ (hx t (by simp) i hi).1).1) (hn t (by simp)) a1 b1 a2 b2
    rw [← e] at b4
    have e' := ih hr.2 hr'.2 (fun u hu => hx u (by simp [hu])) (fun u hu => hn u (by simp [hu])) a3 b3 a4 b4
    subst e1; subst e1'
    simp only [gathered, List.flatMap_append] at e e' ⊢
    rw [e, e']

end

/-! ### copies of roots -/

/-- The tree with another number at its root. -/
def Tree.move (y : Nat) : Tree → Tree
  | .item _ => .item y
  | .hole _ => .hole y
  | .bucket _ ids => .bucket y ids
  | .split _ l r => .split y l r

theorem Tree.move_root (y : Nat) (t : Tree) : (t.move y).root = y := by cases t <;> rfl

/-- A copy has the same bytes as the original when the original is blank from byte `f` on. -/
theorem CutNode.same {L : Layout} {b : Bytes} {x y : Nat} (h : CutNode L b x y) (hb : BlankFrom L b x L.f) :
    ∀ j, j < L.nodeSize → b (y * L.nodeSize + j) = b (x * L.nodeSize + j) := by
  intro j hj
  rw [h j hj]
  split
  · rfl
  · exact (hb j (by omega) hj).symm

theorem RootTree.moved {L : Layout} {sz : Nat} (hL : L.Ok sz) {b : Bytes} {n y : Nat} {live : List Nat} {t : Tree}
    (h : RootTree L b n live t) (hK : L.K < n) (hs : ∀ j, j < L.nodeSize → b (y * L.nodeSize + j) = b (t.root * L.nodeSize + j))
    (hy : t.root < y) : RootTree L b n live (t.move y) ∧ ∃ l r, t = .split t.root l r := by
  have h2 := hL.K_ge
  have h3 := hL.three_le
  cases t with
  | item i => exact h.elim
  | hole i => exact h.elim
  | bucket i ids => obtain ⟨h1, h2, -⟩ := h; omega
  | split i l r =>
    obtain ⟨h1, h2, h3', h4, h5, h6, h7, h8⟩ := h
    simp only [Tree.root] at hy hs
    refine ⟨⟨by omega, by omega, by omega, h4, ?_, ?_, ?_, h8⟩, l, r, rfl⟩
    · rw [← h5]; exact readLE_congr fun j hj => hs j (by omega)
    · rw [← h6]
      refine readLE_congr fun j hj => ?_
      have := hs (L.szIX + 0 * L.szIX + j) (by omega)
      rw [show y * L.nodeSize + L.szIX + 0 * L.szIX + j = y * L.nodeSize + (L.szIX + 0 * L.szIX + j) by omega, this]
      congr 1
      omega
    · rw [← h7]
      refine readLE_congr fun j hj => ?_
      have := hs (L.szIX + 1 * L.szIX + j) (by omega)
      rw [show y * L.nodeSize + L.szIX + 1 * L.szIX + j = y * L.nodeSize + (L.szIX + 1 * L.szIX + j) by omega, this]
      congr 1
      omega

namespace Idx
variable {c : Cfg} {s : Idx c} {m : Nat → Option (List c.N.V)} {n N0 : Nat}

/-- When inner nodes survive, the copy of a root has the same bytes as the root. -/
theorem Built.copy_same (B : s.Built m n N0) (hk : c.L.CountKept n) (hd : c.L.Deep N0) (hK : c.L.K < n) {k : Nat}
    (hlt : k < s.roots.length) : ∀ j, j < c.L.nodeSize →
      s.alloc.data ((N0 + k) * c.L.nodeSize + j) = s.alloc.data (s.roots[k] * c.L.nodeSize + j) := by
  have hr := List.getElem_mem hlt
  obtain ⟨r1, r2⟩ := B.roots_lt _ hr
  have hnd := (B.counted _ hr).eq hk
  have hb := (B.downward _ r1 r2).2.2 (by omega)
  rw [max_eq_left hd.1] at hb
  exact (B.cut hlt).same hb

/-- With roots in order and a node between any two of them, `Load` finds the copies of the roots and nothing else. -/
theorem Reloaded.roots_eq (hc : c.WF) (B : s.Built m n N0) (hk : c.L.CountKept n) (hd : c.L.Deep N0) (hK : c.L.K < n)
    (hgap : s.roots.Pairwise fun a b => a + 1 < b) (hlast : s.roots ≠ [] → s.roots.getLast? = some (N0 - 1)) (hr : s.roots ≠ [])
    {w : World} {t : Idx c} (R : s.Reloaded n N0 w t) : t.roots = (List.range' N0 s.roots.length).reverse := by
  have hN := B.nNodes
  have hl := hlast hr
  have hpos := List.length_pos_iff.2 hr
  obtain ⟨j, j1, j2, j3, j4, j5⟩ := R.roots
  have hj : j + 2 = N0 := by
    by_contra hne
    obtain ⟨ts, h1, h2, h3⟩ := B.forest (Or.inl hd)
    have hx : N0 - 2 ∈ ts.flatMap Tree.inner := h3.mem_iff.2 (List.mem_range'_1.2 ⟨by omega, by omega⟩)
    obtain ⟨u, hu, hxu⟩ := List.mem_flatMap.1 hx
    have e := (h2 u hu).inner_nd (liveOf_length_le _ _) hxu (j4 _ (by omega) (by omega))
    have m1 : N0 - 2 ∈ s.roots := by rw [e, ← h1]; exact List.mem_map_of_mem hu
    have m2 : N0 - 1 ∈ s.roots := B.last hr
    have hall := List.pairwise_iff_getElem.1 hgap
    obtain ⟨a, ha, ea⟩ := List.getElem_of_mem m1
    obtain ⟨b, hb, eb⟩ := List.getElem_of_mem m2
    rcases Nat.lt_trichotomy a b with h | h | h
    · have := hall a b ha hb h; omega
    · subst h; omega
    · have := hall b a hb ha h; omega
  have he : s.roots[s.roots.length - 1] = N0 - 1 := by
    rw [List.getLast?_eq_getElem?, List.getElem?_eq_getElem (by omega)] at hl
    injection hl
  have hsame := B.copy_same hk hd hK (k := s.roots.length - 1) (by omega)
  rw [he] at hsame
  have h3 := hc.layout.three_le
  have hch : childAt c.L s.alloc.data (j + 1) 0 = childAt c.L s.alloc.data (s.nNodes - 1) 0 := by
    symm
    rw [show s.nNodes - 1 = N0 + (s.roots.length - 1) by omega, show j + 1 = N0 - 1 by omega]
    refine readLE_congr fun q hq => ?_
    have := hsame (c.L.szIX + 0 * c.L.szIX + q) (by omega)
    rw [show (N0 + (s.roots.length - 1)) * c.L.nodeSize + c.L.szIX + 0 * c.L.szIX + q =
      (N0 + (s.roots.length - 1)) * c.L.nodeSize + (c.L.szIX + 0 * c.L.szIX + q) by omega, this]
    congr 1
    omega
  rw [if_pos hch, hj] at j5
  rw [j5, hN, Nat.add_sub_cancel_left]

/-- The trees of a built index and of the index loaded from its file. -/
theorem Reloaded.copies (hc : c.WF) (B : s.Built m n N0) (hk : c.L.CountKept n) (hd : c.L.Deep N0) (hK : c.L.K < n)
    {w0 w : World} {t : Idx c} (R : s.Reloaded n N0 w t) (hroots : t.roots = (List.range' N0 s.roots.length).reverse)
    {ts : List Tree} (S : Searchable c (s.mem w0) s.nItems s.roots m ts)
    (hT : ∀ u ∈ ts, RootTree c.L (s.mem w0).get s.nItems (liveOf m n) u) (h0 : 0 < s.nNodes) (query : List c.N.V) :
    ∃ ts' : List Tree, Searchable c (t.mem w) t.nItems t.roots m ts'.reverse ∧
      List.Forall₂ (CopyOf (marginOf c (s.mem w0) query)) ts ts' ∧ ts'.map Tree.root = List.range' N0 s.roots.length ∧
      marginOf c (t.mem w) query = marginOf c (s.mem w0) query := by
  obtain ⟨hm, -⟩ := B.mem_eq w0 h0
  have hmt : (t.mem w).get = s.alloc.data := by rw [R.mem]
  have hms : (s.mem w0).get = s.alloc.data := by rw [hm]; rfl
  have hN := B.nNodes
  have hlen : ts.length = s.roots.length := by rw [← S.roots]; simp
  obtain ⟨us, S', -⟩ := R.searchable hc B hk
  have hroot : ∀ k (hk : k < ts.length), ts[k].root = s.roots[k]'(hlen ▸ hk) := by
    intro k hk
    have : (ts.map Tree.root)[k]'(by simpa using hk) = s.roots[k]'(hlen ▸ hk) := by simp only [S.roots]
    simpa using this
  have hsame := fun k (hlt : k < s.roots.length) => B.copy_same hk hd hK hlt
  have hmoved : ∀ k (hk : k < ts.length), RootTree c.L s.alloc.data n (liveOf m n) (ts[k].move (N0 + k)) ∧
      ∃ l r, ts[k] = .split ts[k].root l r := by
    intro k hk
    have h1 := hT _ (List.getElem_mem hk)
    rw [hms, B.nItems] at h1
    have h2 := (B.roots_lt _ (List.getElem_mem (hlen ▸ hk))).2
    refine h1.moved hc.layout hK (y := N0 + k) ?_ ?_
    · rw [hroot k hk]; exact hsame k (hlen ▸ hk)
    · rw [hroot k hk]; omega
  have hmarg : marginOf c (t.mem w) query = marginOf c (s.mem w0) query := by
    funext i; unfold marginOf; rw [hmt, hms]
  have hmap : (ts.mapIdx fun k t => t.move (N0 + k)).map Tree.root = List.range' N0 s.roots.length := by
    apply List.ext_getElem
    · simp [hlen]
    · intro k h1 h2
      simp [Tree.move_root]
  have hwalk : ∀ u ∈ ts.mapIdx fun k t => t.move (N0 + k), Search.Walkable c (t.mem w) t.nItems u ∧ ∀ x ∈ u.items, x < n := by
    intro u hu
    obtain ⟨k, hk', e⟩ := List.getElem_of_mem hu
    have hkl : k < ts.length := by simpa using hk'
    simp only [List.getElem_mapIdx] at e
    subst e
    have := RootTree.walkable (c := c) (mem := t.mem w) (n := n) (N := s.nNodes) (live := liveOf m n) (fun i hi => (mem_liveOf.1 hi).1)
      (fun i hi => R.getNode B hi) B.n_le_nNodes (t := ts[k].move (N0 + k)) (by rw [Tree.move_root]; omega)
      (by rw [hmt]; exact (hmoved k hkl).1)
    rw [R.nItems]
    exact ⟨this.1, this.2.1⟩
  refine ⟨ts.mapIdx fun k t => t.move (N0 + k), ⟨?_, ?_, ?_, S'.slots, S'.bound, S'.items, S'.gaps⟩, ?_, ?_, hmarg⟩
  · rw [hroots, List.map_reverse, hmap]
  · exact fun u hu => (hwalk u (List.mem_reverse.1 hu)).1
  · rw [R.nItems]
    exact fun u hu => (hwalk u (List.mem_reverse.1 hu)).2
  · rw [List.forall₂_iff_get]
    refine ⟨by simp, fun k h1 h2 => ?_⟩
    obtain ⟨-, l, r, e⟩ := hmoved k h1
    refine ⟨ts[k].root, N0 + k, l, r, by simpa using e, ?_, ?_⟩
    · simp only [List.get_eq_getElem, List.getElem_mapIdx]
      rw [e]; rfl
    · unfold marginOf
      rw [hc.margin _ _ _ ((N0 + k) * c.L.nodeSize) query (fun j hj => ?_)]
      rw [hms, hroot k h1]
      exact (hsame k (hlen ▸ h1) j hj).symm
  · exact hmap

end Idx

/-- **C28 for indexes built by one worker**, given that counts and inner nodes survive being written, with inner nodes as roots (more than
`K` slots, three items or more): *every* search whose margins are finite gives the same answer after `Load` as before `Save`, bit for bit,
whatever `k`, budget and context. -/
theorem Session.C28_one_worker_partial {c : Cfg} {numCPU : Nat} {adds : List (Nat × List c.N.V)} {trees workers : Int} {s s' : Idx c}
    (h : Session c numCPU .single adds trees workers s s') (hN : c.N.KeyLaws) (hM : MinKeys c)
    (hn : c.L.K < slotCount adds) (h3 : 3 ≤ (addedIds adds).length) (hroots : s'.roots ≠ []) (hk : c.L.CountKept (slotCount adds))
    (hs : SplitsKept c numCPU .single (slotCount adds) trees workers)
    {w0 w : World} {path : String} (hf : FileOf s' w path) {bk : Backend} {u t : Idx c} (hl : u.load bk w path = .ok (.nil, t))
    {query : List c.N.V} (hq : GoodQuery c query) (hfin : FiniteMargins s' w0 query) {k b : Int} {fuel fuel' : Nat}
    {ctx ctx' o o' : Ctx c} {ids ids' : List Nat} {ds ds' : List c.N.V}
    (hr : s'.getNnsByVector fuel w0 query k b ctx = .ok (ids, ds, o))
    (hr' : t.getNnsByVector fuel' w query k b ctx' = .ok (ids', ds', o')) : ids' = ids ∧ ds' = ds := by
  have hK2 := h.wf.layout.K_ge
  obtain ⟨t', h1, N0, B, hN0, R⟩ := h.reload (by omega) hroots hk hf bk u
  rw [hl] at h1
  cases h1
  have hd : c.L.Deep N0 := by
    rcases hs with hs | hs
    · omega
    · exact hs.mono hN0
  obtain ⟨hi1, hi2, hi3, -⟩ := h.start
  have hN := B.nNodes
  have hpos := List.length_pos_iff.2 hroots
  have h0 : 0 < s'.nNodes := by omega
  cases h.builds with
  | single rf tf lf hb =>
    obtain ⟨N1, B1, -, -, -, hlast⟩ := Idx.build_spec h.wf hi1 hi2 hi3 rf tf lf trees h.fits hb
    have e1 : N1 = N0 := by have := B1.nNodes; omega
    subst e1
    obtain ⟨ho1, ho2⟩ := Idx.build_order h.wf hi1 hi2 hi3 rf tf lf trees h.fits hb
    have hgap := ho2 (by rw [hN]; simpa using hd) hn h3
    have hroots' := R.roots_eq h.wf B hk hd hn hgap hlast hroots
    obtain ⟨ts, S, -, -, -, hT, hinner⟩ := h.searchable_inner hs w0
    obtain ⟨ts', S', hcopy, hmap, hmarg⟩ := R.copies h.wf B hk hd hn hroots' S hT h0 query
    have hx := inner_margins S hinner hfin
    have hlen : t.roots.length = s'.roots.length := by rw [hroots']; simp
    have hx' : ∀ u ∈ ts'.reverse, ∀ i ∈ u.splitNodes, c.N.Finite (marginOf c (t.mem w) query i) := by
      intro u' hu' i hi
      obtain ⟨u, hu, j, j', l, r, rfl, rfl, e⟩ := forall₂_mem_right hcopy (List.mem_reverse.1 hu')
      rw [hmarg]
      simp only [Tree.splitNodes, List.mem_cons] at hi
      rcases hi with rfl | hi
      · rw [← e]; exact hx _ hu j (by simp [Tree.splitNodes])
      · exact hx _ hu i (by simp only [Tree.splitNodes, List.mem_cons]; exact Or.inr hi)
    obtain ⟨vs, G, c1, c2, c3, -⟩ := Search.walk_answer h.wf ‹_› hM S hq
      (fun t ht j hj => (‹c.N.KeyLaws›.lt_ordinary _ _ (hx t ht j hj).1).1) hr
    obtain ⟨vs', G', d1, d2, d3, -⟩ := Search.walk_answer h.wf ‹_› hM S' hq
      (fun t ht j hj => (‹c.N.KeyLaws›.lt_ordinary _ _ (hx' t ht j hj).1).1) hr'
    rw [hlen] at d3
    rw [hmarg, List.map_reverse] at d2
    have d2' := d2.perm (List.reverse_perm _)
    rw [List.reverse_reverse] at d2'
    have hin : (ts.flatMap Tree.inner).Nodup := hinner.nodup_iff.2 List.nodup_range'
    have hg : gathered vs = gathered vs' := by
      refine BestFirst.copies ‹_› hcopy (by rw [S.roots]; exact ho1) (by rw [hmap]; exact List.pairwise_lt_range' (step := 1) (by omega)) hx ?_
        c2 d2' c3 d3
      intro u hu
      refine (hT u hu).nodes_nodup ?_ (liveOf_nodup _ _)
      obtain ⟨t1, t2, rfl⟩ := List.append_of_mem hu
      rw [List.flatMap_append, List.nodup_append, List.flatMap_cons, List.nodup_append] at hin
      exact hin.2.1.1
    have below : ∀ i ∈ gathered vs, i < s'.nItems := by
      intro i hi
      have := c2.content.2.subset (List.mem_append_left _ hi)
      simp only [List.mem_flatMap, List.mem_map] at this
      obtain ⟨e, ⟨t, ht, rfl⟩, hi⟩ := this
      exact S.below t ht i hi
    obtain ⟨col, k1, k2⟩ := Search.collect_of_run hr
    rw [c1] at k1
    cases k1
    obtain ⟨col', k1', k2'⟩ := Search.collect_of_run hr'
    rw [d1] at k1'
    cases k1'
    obtain ⟨a1, a2⟩ := Search.run_best h.wf S hq.length c1 below k2 hr
    have en : t.nItems = s'.nItems := by rw [R.nItems, B.nItems]
    obtain ⟨b1, b2⟩ := Search.run_best h.wf S' hq.length d1 (by rw [← hg, en]; exact below) k2' hr'
    rw [← hg, en] at b1 b2
    exact ⟨b1.trans a1.symm, b2.trans a2.symm⟩

/-! ### indexes whose trees are single buckets -/

theorem Search.bucket_answer {c : Cfg} {mem : Block} {n : Nat} {roots : List Nat} {m : Nat → Option (List c.N.V)} {ts : List Tree}
    (hc : c.WF) (hN : c.N.Lawful) (h : Searchable c mem n roots m ts) (C : Complete m ts) (U : ∀ t ∈ ts, t.leaves = [t])
    (hroots : roots ≠ []) {query : List c.N.V} (hq : GoodQuery c query) {k b : Int} {fuel : Nat} {ctx ctx' : Ctx c} {ids : List Nat}
    {ds : List c.N.V} (hr : run c fuel mem n roots query k b ctx = .ok (ids, ds, ctx')) :
    ids = (best c m query k (if 1 ≤ (if b = -1 then k * roots.length else b) then liveOf m n else [])).map Prod.snd ∧
      ds = (best c m query k (if 1 ≤ (if b = -1 then k * roots.length else b) then liveOf m n else [])).map fun p => c.D.normalizedDistance p.1 := by
  obtain ⟨done, rest, d1, d2, d3, d4⟩ := answer hc hN h hq hr
  have hne : ts ≠ [] := by rintro rfl; exact hroots (by rw [← h.roots]; rfl)
  obtain ⟨col, e1, e2⟩ := collect_of_run hr
  have e := collect_det e1 d3
  have hbest := run_best hc h hq.length d3 (col_below h d1) (e ▸ e2) hr
  have hS : itemsAmong m n (done.flatMap Tree.items) =
      if 1 ≤ (if b = -1 then k * roots.length else b) then liveOf m n else [] := by
    by_cases hb : 1 ≤ (if b = -1 then k * roots.length else b)
    · rw [if_pos hb]
      unfold itemsAmong liveOf
      apply List.filter_congr
      intro i _
      by_cases hi : (m i).isSome
      · simp only [hi, bucket_all C U d1 d2 hne hb hi, and_self, decide_true]
      · simp [hi]
    · rw [if_neg hb]
      obtain _ | fuel := fuel
      · cases d3
      · unfold collect at d3
        rw [if_neg (by simp only [List.length_nil, Nat.cast_zero]; omega)] at d3
        rw [← Except.ok.inj d3]
        simp [itemsAmong]
  rw [hS] at hbest
  exact hbest

theorem RootTree.leaves_of_le {L : Layout} {b : Bytes} {n : Nat} {live : List Nat} {t : Tree} (h : RootTree L b n live t) (hn : n ≤ L.K) :
    t.leaves = [t] := by
  cases t with
  | bucket i ids => rfl
  | split i l r => have := h.2.2.2.1; omega
  | item i => exact h.elim
  | hole i => exact h.elim

/-- **C28 for small indexes** (up to `K` slots, so that every tree is one bucket), built by any number of workers, given that counts and the
children of root copies survive being written: *every* search gives the same answer after `Load` as before `Save`, bit for bit, although
the loaded index may have more roots. -/
theorem Session.C28_buckets_partial {c : Cfg} {numCPU : Nat} {pol : BuildPolicy} {adds : List (Nat × List c.N.V)} {trees workers : Int}
    {s s' : Idx c} (h : Session c numCPU pol adds trees workers s s') (hN : c.N.Lawful) (hn : 2 ≤ slotCount adds)
    (hK : slotCount adds ≤ c.L.K) (hroots : s'.roots ≠ []) (hk : c.L.CountKept (slotCount adds))
    (hck : c.L.CopiesKept (slotCount adds))
    {w0 w : World} {path : String} (hf : FileOf s' w path) {bk : Backend} {u t : Idx c} (hl : u.load bk w path = .ok (.nil, t))
    {query : List c.N.V} (hq : GoodQuery c query) {k b : Int} {fuel fuel' : Nat} {ctx ctx' o o' : Ctx c} {ids ids' : List Nat}
    {ds ds' : List c.N.V} (hr : s'.getNnsByVector fuel w0 query k b ctx = .ok (ids, ds, o))
    (hr' : t.getNnsByVector fuel' w query k b ctx' = .ok (ids', ds', o')) : ids' = ids ∧ ds' = ds := by
  obtain ⟨h1, e, ts, S, C, -, Z⟩ := h.reload_complete hn hroots hk (Or.inl hK) hck hf hl
  obtain ⟨ts0, S0, C0, -, -, Z0⟩ := h.searchable_complete (Or.inl hK) w0
  obtain ⟨N0, B, _⟩ := h.built
  have en : s'.nItems = slotCount adds := B.nItems
  obtain ⟨a1, a2⟩ := Search.bucket_answer h.wf hN S C (fun u hu => (Z u hu).leaves_of_le hK) h1 hq hr'
  obtain ⟨b1, b2⟩ := Search.bucket_answer h.wf hN S0 C0 (fun u hu => (Z0 u hu).leaves_of_le (en ▸ hK)) hroots hq hr
  have e0 : liveOf (lastAdded adds) s'.nItems = addedIds adds := by rw [en]
  have p1 := List.length_pos_iff.2 h1
  have p2 := List.length_pos_iff.2 hroots
  have hif : (1 ≤ (if b = -1 then k * t.roots.length else b)) ↔ 1 ≤ (if b = -1 then k * s'.roots.length else b) := by
    split
    · have q : ∀ l : Nat, 0 < l → (1 ≤ k * (l : Int) ↔ 1 ≤ k) := by
        intro l hl
        constructor
        · intro h
          by_contra hk
          have := mul_nonpos_of_nonpos_of_nonneg (show k ≤ 0 by omega) (show (0 : Int) ≤ l by omega)
          omega
        · intro h
          have := mul_le_mul h (show (1 : Int) ≤ l by omega) (by omega) (by omega)
          omega
      rw [q _ p1, q _ p2]
    · rfl
  simp only [hif, e] at a1 a2
  rw [e0] at b1 b2
  exact ⟨a1.trans b1.symm, a2.trans b2.symm⟩

/-! ### examples -/

/-- The hypotheses of `C28_one_worker_partial`: the index of C64 and C71 in a file, loaded; its default search for (1, 0, …) has an answer
before and after. -/
example : ∃ s s', Session (alt32 16) 1 .single groupAdds 2 1 s s' ∧ (alt32 16).N.KeyLaws ∧ MinKeys (alt32 16) ∧
    (alt32 16).L.K < slotCount groupAdds ∧ 3 ≤ (addedIds groupAdds).length ∧ s'.roots ≠ [] ∧
    (alt32 16).L.CountKept (slotCount groupAdds) ∧ SplitsKept (alt32 16) 1 .single (slotCount groupAdds) 2 1 ∧
    GoodQuery (alt32 16) eastVec ∧ (∀ w, FiniteMargins s' w eastVec) ∧
    ∃ w t, FileOf s' w "x" ∧ s'.load .mmap w "x" = .ok (.nil, t) ∧
      ∃ fuel ctx ds o, t.getNnsByVector fuel w eastVec 1 (-1) ctx = .ok ([0], ds, o) := by
  obtain ⟨s, s', h, hs, hN, hM, hq, -, hroots, -, hw⟩ := C64_C71_case
  have hr : s'.roots ≠ [] := by rw [hroots]; simp
  have hk : (alt32 16).L.CountKept (slotCount groupAdds) := by unfold Layout.CountKept; decide +kernel
  have hK : (alt32 16).L.K < slotCount groupAdds := by decide +kernel
  have h3 : 3 ≤ (addedIds groupAdds).length := by decide +kernel
  have hck : (alt32 16).L.CopiesKept (slotCount groupAdds) := Or.inl (by decide +kernel)
  have hn : 2 ≤ slotCount groupAdds := by decide +kernel
  have hf := h.fileOf.2 (oneFile_read "x" _)
  obtain ⟨t, l1, _⟩ := h.reload hn hr hk hf .mmap s'
  obtain ⟨F, hF⟩ := C20_answers_loaded_partial h ieee32_lawful hn hr hk hs hck hf l1
  obtain ⟨⟨ids', ds', o'⟩, e'⟩ := hF _ hq 1 (-1) ⟨List.replicate (t.roots.length * slotCount groupAdds) 0, []⟩ F le_rfl
    (by simp only [List.length_replicate]; exact le_rfl)
  obtain ⟨-, -, -, -, ds, o, e⟩ := hw (oneFile "x" [])
  obtain ⟨rfl, rfl⟩ := h.C28_one_worker_partial hN hM hK h3 hr hk hs hf l1 hq (hw _).1 e e'
  exact ⟨s, s', h, hN, hM, hK, h3, hr, hk, hs, hq, fun w => (hw w).1, _, t, hf, l1, _, _, _, _, e'⟩

/-- The hypotheses of `C28_buckets_partial`: two items, vectors of length 12, three trees. -/
example : ∃ s s', Session (alt32 12) 1 .single (longAdds 2) 3 1 s s' ∧ 2 ≤ slotCount (longAdds 2) ∧
    slotCount (longAdds 2) ≤ (alt32 12).L.K ∧ s'.roots ≠ [] ∧ (alt32 12).L.CountKept (slotCount (longAdds 2)) ∧
    (alt32 12).L.CopiesKept (slotCount (longAdds 2)) ∧ GoodQuery (alt32 12) query12 ∧
    ∃ w t, FileOf s' w "x" ∧ s'.load .mmap w "x" = .ok (.nil, t) ∧
      ∀ k b : Int, ∃ fuel ctx x, t.getNnsByVector fuel w query12 k b ctx = .ok x := by
  obtain ⟨s, s', _, h, h1, _⟩ := C10_single (alt32_wf (f := 12) (by decide))
    (Conc.angular_total altRng_inRange (by decide)) (alt32_balanced 12) 1 (longAdds 2)
    (legalAdds_of (by decide +kernel)) false 0 3 1 (by decide +kernel)
  have hr : s'.roots ≠ [] := by
    intro h0
    have := h1 (by decide)
    rw [h0] at this
    simp at this
  have hk : (alt32 12).L.CountKept (slotCount (longAdds 2)) := by unfold Layout.CountKept; decide +kernel
  have hK : slotCount (longAdds 2) ≤ (alt32 12).L.K := by decide +kernel
  have hck : (alt32 12).L.CopiesKept (slotCount (longAdds 2)) := by unfold Layout.CopiesKept; decide +kernel
  have hn : 2 ≤ slotCount (longAdds 2) := by decide +kernel
  have hf := h.fileOf.2 (oneFile_read "x" _)
  obtain ⟨t, l1, _⟩ := h.reload hn hr hk hf .mmap s'
  have hq : GoodQuery (alt32 12) query12 := ⟨rfl, angular_marginOk rfl (by decide)⟩
  obtain ⟨F, hF⟩ := C20_answers_loaded_partial h ieee32_lawful hn hr hk (Or.inl hK) hck hf l1
  exact ⟨s, s', h, hn, hK, hr, hk, hck, hq, _, t, hf, l1,
    fun k b => ⟨F, ⟨List.replicate (t.roots.length * slotCount (longAdds 2)) 0, []⟩, hF _ hq k b _ _ le_rfl (by simp only [List.length_replicate]; exact le_rfl)⟩⟩

end Annoy
