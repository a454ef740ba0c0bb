import Verif.Model.ConcBuild
import Verif.Proof.ConcRun
import Verif.Proof.ConcSave
import Verif.Proof.FirstTree
import Verif.Proof.RootOrder
/-!
The nodes of workers that have published their roots: nobody writes them any more, and no search leaves them.
-/
namespace Annoy

/-- The root of a subtree is an item or one of its nodes. -/
theorem SubTree.root_in {L : Layout} {b : Bytes} {n : Nat} {t : Tree} (h : SubTree L b n t) : t.root < n ∨ t.root ∈ t.inner := by
  cases t with
  | item i => exact Or.inl h.1
  | hole i => exact absurd h id
  | bucket i ids => right; simp [Tree.root, Tree.inner]
  | split i l r => right; simp [Tree.root, Tree.inner]

/-- The children of an inner node of a subtree are items or nodes of it. -/
theorem SubTree.closed {L : Layout} {b : Bytes} {n : Nat} {t : Tree} (h : SubTree L b n t) : ∀ i ∈ t.inner, L.K < ndAt L b i →
    (childAt L b i 0 < n ∨ childAt L b i 0 ∈ t.inner) ∧ (childAt L b i 1 < n ∨ childAt L b i 1 ∈ t.inner) := by
  induction t with
  | item i => intro i hi; simp [Tree.inner] at hi
  | hole i => exact absurd h id
  | bucket i ids =>
    intro j hj hK
    obtain ⟨-, -, h1, h2, -⟩ := h
    simp only [Tree.inner, List.mem_singleton] at hj
    subst hj
    omega
  | split i l r ihl ihr =>
    obtain ⟨-, -, -, -, -, e0, e1, -, -, hl, hr⟩ := h
    intro j hj hK
    simp only [Tree.inner, List.mem_append, List.mem_singleton] at hj ⊢
    rcases hj with (hj | hj) | hj
    · have := ihl hl j hj hK
      tauto
    · have := ihr hr j hj hK
      tauto
    · subst hj
      rw [e0, e1]
      have h1 := hl.root_in
      have h2 := hr.root_in
      tauto

/-- The children of an inner node of a tree are item slots or nodes of it. -/
theorem RootTree.closed {L : Layout} {b : Bytes} {n : Nat} {live : List Nat} {t : Tree} (h : RootTree L b n live t) :
    ∀ i ∈ t.inner, L.K < ndAt L b i →
    (childAt L b i 0 < n ∨ childAt L b i 0 ∈ t.inner) ∧ (childAt L b i 1 < n ∨ childAt L b i 1 ∈ t.inner) := by
  cases t with
  | item i => exact absurd h id
  | hole i => exact absurd h id
  | bucket i ids =>
    intro j hj hK
    obtain ⟨-, h1, h2, -⟩ := h
    simp only [Tree.inner, List.mem_singleton] at hj
    subst hj
    omega
  | split i l r =>
    obtain ⟨-, -, -, hn, -, e0, e1, ⟨-, -, -, hl, hr⟩ | ⟨j, -, hj, rfl, rfl, -⟩⟩ := h
    · intro j hj hK
      simp only [Tree.inner, List.mem_append, List.mem_singleton] at hj ⊢
      rcases hj with (hj | hj) | hj
      · have := hl.closed j hj hK
        tauto
      · have := hr.closed j hj hK
        tauto
      · subst hj
        rw [e0, e1]
        have h1 := hl.root_in
        have h2 := hr.root_in
        tauto
    · intro k hk hK
      simp only [Tree.inner, List.nil_append, List.mem_singleton] at hk
      subst hk
      rw [e0, e1]
      exact ⟨Or.inl hj.1, Or.inl (by show 0 < n; omega)⟩

namespace Conc
variable {c : Cfg}

/-- The worker has published its roots; at most the lock is left to be released. -/
def Published (p : Prog c) : Prop := p = .unlockR .done ∨ p = .done

/-- Who has roots in the index has published them. -/
def Told (ts : List (Th c)) : Prop := ∀ t ∈ ts, t.g.fin.isSome → Published t.p

/-- Node `i` belongs to a worker that has published its roots. -/
def Pub (ts : List (Th c)) (i : Nat) : Prop := ∃ t ∈ ts, Published t.p ∧ i ∈ t.g.O

/-- What a worker has produced when it has published its roots. -/
theorem Safe.published {P : Par} {p : Prog c} {h : Held} {g : G} {b : Bytes} (S : Safe P p h g b) (hp : Published p) :
    ∃ rs, g.fin = some rs ∧ (∀ r ∈ rs, r ∈ g.O) ∧ (∀ x ∈ g.O, Downward c.L b P.n x) ∧
      ∀ D, (∀ x ∈ g.O, x < D) → (c.L.Deep D ∨ P.n ≤ c.L.K) → ∃ ts : List Tree,
        ts.map Tree.root = rs ∧ (∀ t ∈ ts, SidedRoot c b P.n P.live t) ∧ (ts.flatMap Tree.inner).Perm g.O := by
  rcases hp with rfl | rfl
  · obtain ⟨-, -, rs, h1, h2⟩ := S
    exact ⟨rs, h1, h2.sub, h2.downward, h2.forest⟩
  · obtain ⟨-, rs, h1, h2⟩ := S
    exact ⟨rs, h1, h2.sub, h2.downward, h2.forest⟩

/-- A step of a worker, seen by a search. -/
theorem Inv.told_step (hc : c.WF) {P : Par} {d0 : Bytes} {x y : Conf c} {ts : List (Th c)} {pub : List (List Nat)}
    (e : x.ths = ts.map (fun t => (t.h, t.p))) (I : Inv P d0 x.idx ts pub) (J : Told ts) (st : Step x y) :
    ∃ ts' pub', y.ths = ts'.map (fun t => (t.h, t.p)) ∧ Inv P d0 y.idx ts' pub' ∧ Told ts' ∧ (∀ i, Pub ts i → Pub ts' i) ∧
      x.idx.roots <+: y.idx.roots ∧ ∀ i, i < P.n ∨ Pub ts i → SameNode c.L x.idx.alloc.data y.idx.alloc.data i := by
  have hp := hc.layout.nodeSize_pos
  cases st with
  | mk pre post st =>
    rename_i s s' h h' p p'
    dsimp only at e I
    obtain ⟨pre', rest', rfl, e1, e2⟩ := List.append_eq_map_iff.1 e
    obtain ⟨t, post', rfl, e3, e4⟩ := List.map_eq_cons_iff.1 e2
    have hperm : (pre' ++ t :: post').Perm (t :: (pre' ++ post')) := List.perm_middle
    have I' := I.perm hperm
    have ho : (pre ++ post).map Prod.fst = (pre' ++ post').map Th.h := by
      rw [← e1, ← e4]; simp [Function.comp_def]
    rw [ho] at st
    injection e3 with e5 e6
    subst e5 e6
    obtain ⟨g', pub', hG, I2⟩ := I'.step hc st
    -- a worker that has published does not change the index
    have hstay : Published t.p → Published p' ∧ s' = s := by
      intro h
      obtain ⟨th, tp, tg⟩ := t
      dsimp only at st h
      rcases h with rfl | rfl
      · cases st
        exact ⟨Or.inr rfl, rfl⟩
      · cases st
    have hin : ∀ u, u ∈ pre' ++ t :: post' ↔ u = t ∨ u ∈ pre' ++ post' := fun u => by
      rw [hperm.mem_iff, List.mem_cons]
    have hin' : ∀ u, u ∈ pre' ++ (⟨h', p', g'⟩ : Th c) :: post' ↔ u = ⟨h', p', g'⟩ ∨ u ∈ pre' ++ post' := fun u => by
      rw [List.perm_middle.mem_iff, List.mem_cons]
    refine ⟨pre' ++ ⟨h', p', g'⟩ :: post', pub', by simp [e1, e4], I2.perm List.perm_middle.symm, ?_, ?_, ?_, ?_⟩
    · intro u hu hf
      rcases (hin' u).1 hu with rfl | hu
      · dsimp only at hf ⊢
        obtain ⟨rs, hrs⟩ := Option.isSome_iff_exists.1 hf
        rcases hG.fin rs hrs with h1 | h1
        · exact (hstay (J t ((hin t).2 (Or.inl rfl)) (by rw [h1]; rfl))).1
        · exact Or.inl h1
      · exact J u ((hin u).2 (Or.inr hu)) hf
    · rintro i ⟨u, hu, hpu, hi⟩
      rcases (hin u).1 hu with rfl | hu
      · exact ⟨_, (hin' _).2 (Or.inl rfl), (hstay hpu).1, hG.own i hi⟩
      · exact ⟨u, (hin' u).2 (Or.inr hu), hpu, hi⟩
    · obtain ⟨q, hq⟩ := hG.roots
      exact ⟨q, hq.symm⟩
    · rintro i (hi | ⟨u, hu, hpu, hi⟩)
      · intro j hj
        exact (I.items _ (Idx.node_lt hi hj)).trans (I2.items _ (Idx.node_lt hi hj)).symm
      · rcases (hin u).1 hu with rfl | hu
        · intro j hj
          dsimp only
          rw [(hstay hpu).2]
        · intro j hj
          have := hG.views u hu
          dsimp only
          rw [← view_own hp hi hj (n := P.n) (d := s.alloc.data), ← this, view_own hp hi hj]

/-- Every root in the index is a node of a worker that has published its roots. -/
theorem Inv.roots_pub {P : Par} {d0 : Bytes} {s : Idx c} {ts : List (Th c)} {pub : List (List Nat)} (I : Inv P d0 s ts pub) (J : Told ts) :
    ∀ r ∈ s.roots, Pub ts r := by
  intro r hr
  rw [I.roots, List.mem_flatten] at hr
  obtain ⟨rs, h1, h2⟩ := hr
  obtain ⟨t, ht, hf⟩ := List.mem_filterMap.1 (I.order.mem_iff.1 h1)
  have hpu := J t ht (by rw [hf]; rfl)
  obtain ⟨rs', e, h3, -⟩ := (I.thr t ht).safe.published hpu
  rw [hf] at e
  cases e
  exact ⟨t, ht, hpu, h3 r h2⟩

theorem memOK_mem {s : Idx c} (h : s.MemOK) (w : World) {i : Nat} (hi : i < s.nodesSize) :
    s.mem w = s.alloc.block ∧ getNode c.L (s.mem w) i = .ok (i * c.L.nodeSize) := by
  have hn := h.nodes (by omega)
  have h1 : s.mem w = s.alloc.block := by simp [Idx.mem, hn]
  have h2 : s.bmem = s.alloc.block := by simp [Idx.bmem, hn]
  refine ⟨h1, ?_⟩
  rw [h1, ← h2]
  exact (h.getNode hi).1

theorem Inv.pub_lt {P : Par} {d0 : Bytes} {s : Idx c} {ts : List (Th c)} {pub : List (List Nat)} (I : Inv P d0 s ts pub) :
    ∀ i, i < P.n ∨ Pub ts i → i < s.nNodes := by
  rintro i (hi | ⟨t, ht, -, hi⟩)
  · have := I.base.n_le
    omega
  · exact (I.own_bounds ht hi).2

theorem Inv.pub_size {P : Par} {d0 : Bytes} {s : Idx c} {ts : List (Th c)} {pub : List (List Nat)} (I : Inv P d0 s ts pub) :
    ∀ i, i < P.n ∨ Pub ts i → i < s.nodesSize := fun i hi => lt_of_lt_of_le (I.pub_lt i hi) I.base.le_size

/-- A search that starts at a root in the index stays on item slots and on nodes that nobody writes any more. -/
theorem Inv.agree (hc : c.WF) {P : Par} {d0 : Bytes} {s : Idx c} {ts : List (Th c)} {pub : List (List Nat)} (I : Inv P d0 s ts pub)
    (low : ∀ i, i < P.n → ndAt c.L d0 i ≤ 1) (hD : c.L.Deep P.B ∨ P.n ≤ c.L.K) {s' : Idx c} (hm : s'.MemOK) (hn : s'.nItems = P.n)
    (hle : ∀ i, i < P.n ∨ Pub ts i → i < s'.nodesSize) (hd : ∀ i, i < P.n ∨ Pub ts i → SameNode c.L s.alloc.data s'.alloc.data i) (w : World) :
    Search.Agree c (s.mem w) (s'.mem w) s.nItems s'.nItems (fun i => i < P.n ∨ Pub ts i) := by
  have hL := hc.layout
  have hp := hL.nodeSize_pos
  have hB : s.nNodes ≤ P.B := by have := I.credit; omega
  have hlt := I.pub_lt
  have hmem : ∀ i, i < P.n ∨ Pub ts i → s.mem w = s.alloc.block ∧ getNode c.L (s.mem w) i = .ok (i * c.L.nodeSize) := fun i hi =>
    memOK_mem I.base.memOK w (lt_of_lt_of_le (hlt i hi) I.base.le_size)
  have hmem' : ∀ i, i < P.n ∨ Pub ts i → s'.mem w = s'.alloc.block ∧ getNode c.L (s'.mem w) i = .ok (i * c.L.nodeSize) := fun i hi =>
    memOK_mem hm w (hle i hi)
  have hlow : ∀ i, i < P.n → ndAt c.L s.alloc.data i ≤ 1 := by
    intro i hi
    have e : SameNode c.L s.alloc.data d0 i := fun j hj => I.items _ (Idx.node_lt hi hj)
    rw [e.nd hL]
    exact low i hi
  refine ⟨fun i hi => ⟨_, (hmem i hi).2, (hmem' i hi).2, fun j hj => ?_⟩, fun i _ _ _ _ => by rw [I.base.nItems, hn], ?_, ?_⟩
  · rw [(hmem i hi).1, (hmem' i hi).1]
    exact hd i hi j hj
  · intro i hi a ha hK hno y hy
    obtain ⟨e1, e2⟩ := hmem i hi
    rw [e2] at ha
    cases ha
    rw [e1] at hK hno hy
    rw [I.base.nItems] at hno
    by_cases hin : i < P.n
    · have hl := hlow i hin
      have h0 : ndAt c.L s.alloc.data i = 0 := by
        by_contra hne
        exact hno ⟨by show ndAt c.L s.alloc.data i = 1; omega, hin⟩
      obtain ⟨k', hk', _⟩ := List.mem_map.1 hy
      have hk' := List.mem_range.1 hk'
      have h0 : Node.nDesc c.L s.alloc.data (i * c.L.nodeSize) = 0 := h0
      have hk' : k' < Node.nDesc c.L s.alloc.data (i * c.L.nodeSize) := hk'
      omega
    · obtain ⟨t, ht, hpu, hio⟩ := hi.resolve_left hin
      obtain ⟨rs, -, -, h3, -⟩ := (I.thr t ht).safe.published hpu
      have hsame : SameNode c.L (view c P.n t.g.O s.alloc.data) s.alloc.data i := fun j hj => view_own hp hio hj
      exact Or.inl (((h3 i hio).congr hL hsame).1 hK y hy)
  · intro i hi a ha hK
    obtain ⟨e1, e2⟩ := hmem i hi
    rw [e2] at ha
    cases ha
    rw [e1] at hK ⊢
    have hK : c.L.K < ndAt c.L s.alloc.data i := hK
    by_cases hin : i < P.n
    · have hl := hlow i hin
      have := hL.K_ge
      omega
    · obtain ⟨t, ht, hpu, hio⟩ := hi.resolve_left hin
      obtain ⟨rs, -, -, -, h4⟩ := (I.thr t ht).safe.published hpu
      obtain ⟨F, -, hF, hO⟩ := h4 P.B (fun x hx => lt_of_lt_of_le (I.own_bounds ht hx).2 hB) hD
      have hsame : SameNode c.L (view c P.n t.g.O s.alloc.data) s.alloc.data i := fun j hj => view_own hp hio hj
      obtain ⟨f, hf, hif⟩ := List.mem_flatMap.1 (hO.mem_iff.2 hio)
      have hcl := (hF f hf).1.closed i hif (by rw [hsame.nd hL]; exact hK)
      rw [hsame.child hL (by omega), hsame.child hL (by omega)] at hcl
      have hown : ∀ y, y ∈ f.inner → Pub ts y := fun y hy => ⟨t, ht, hpu, hO.mem_iff.1 (List.mem_flatMap.2 ⟨f, hf, hy⟩)⟩
      exact ⟨hcl.1.imp_right (hown _), hcl.2.imp_right (hown _)⟩

end Conc
end Annoy
