import Verif.Proof.Items
import Verif.Proof.Tree
import Verif.Proof.Sides
/-!
Invariants of `makeTree` and `Build` (single worker).
-/
namespace Annoy

theorem mapM_ok {α β : Type} {f : α → Except Err β} {g : α → β} {l : List α}
    (h : ∀ x ∈ l, f x = .ok (g x)) : l.mapM f = .ok (l.map g) := by
  induction l with
  | nil => rfl
  | cons a l ih =>
    rw [List.mapM_cons, h a (by simp), ih (fun x hx => h x (by simp [hx]))]
    rfl

namespace Idx
variable {c : Cfg}

/-- The invariant while building: `n` item slots, nothing written behind the last node. -/
structure BInv (s : Idx c) (n : Nat) : Prop where
  memOK : s.MemOK
  loaded : s.loaded = false
  nItems : s.nItems = n
  n_le : n ≤ s.nNodes
  le_size : s.nNodes ≤ s.nodesSize
  zero : ∀ x, s.nNodes * c.L.nodeSize ≤ x → s.alloc.data x = 0

/-- `s'` extends `s`: nothing but new nodes was written. -/
structure Ext (s s' : Idx c) (n : Nat) : Prop where
  inv : s'.BInv n
  nNodes : s.nNodes ≤ s'.nNodes
  frame : ∀ x, x < s.nNodes * c.L.nodeSize → s'.alloc.data x = s.alloc.data x
  roots : s'.roots = s.roots
  built : s'.built = s.built

theorem Ext.refl {s : Idx c} {n : Nat} (h : s.BInv n) : Ext s s n :=
  ⟨h, le_rfl, fun _ _ => rfl, rfl, rfl⟩

theorem Ext.trans {s s' s'' : Idx c} {n : Nat} (h : Ext s s' n) (h' : Ext s' s'' n) : Ext s s'' n := by
  refine ⟨h'.inv, h.nNodes.trans h'.nNodes, ?_, h'.roots.trans h.roots, h'.built.trans h.built⟩
  intro x hx
  rw [h'.frame x, h.frame x hx]
  have := Nat.mul_le_mul_right c.L.nodeSize h.nNodes
  omega

theorem Ext.sameNode {s s' : Idx c} {n : Nat} (h : Ext s s' n) {i : Nat} (hi : i < s.nNodes) :
    SameNode c.L s.alloc.data s'.alloc.data i := by
  intro j hj
  symm
  apply h.frame
  have := Nat.mul_le_mul_right c.L.nodeSize hi
  rw [Nat.succ_mul] at this
  omega

theorem BInv.rng {s : Idx c} {n : Nat} (h : s.BInv n) (r : c.R.σ) : ({ s with rng := r } : Idx c).BInv n :=
  ⟨⟨h.memOK.fits, h.memOK.size, h.memOK.nodes⟩, h.loaded, h.nItems, h.n_le, h.le_size, h.zero⟩

theorem takeNode_spec (hL : c.L.Ok c.C.sz) {s : Idx c} {n : Nat} (h : s.BInv n)
    (hf : c.L.Fits (s.nNodes + 1)) :
    s.takeNode.1 = s.nNodes ∧ s.takeNode.2.BInv n ∧ s.takeNode.2.nNodes = s.nNodes + 1 ∧
    s.takeNode.2.alloc.data = s.alloc.data ∧ s.takeNode.2.roots = s.roots ∧
    s.takeNode.2.built = s.built := by
  have hp := hL.nodeSize_pos
  have hw : c.L.wrap (s.nNodes + 1) = s.nNodes + 1 := c.L.wrap_eq (hf.lt_range hp)
  have hzs := Nat.mul_le_mul_right c.L.nodeSize h.le_size
  obtain ⟨hm, hn1, hn2, hd, sz, nd, al, he⟩ := allocateSize_spec hL h.memOK hf h.zero hzs
  unfold takeNode
  rw [hw]
  generalize hs1 : s.allocateSize (s.nNodes + 1) = s1 at *
  have hnn : s1.nNodes = s.nNodes := by rw [he]
  dsimp only
  rw [hnn, hw]
  refine ⟨rfl, ?_, rfl, hd, by rw [he], by rw [he]⟩
  have := h.n_le
  refine ⟨⟨hm.fits, hm.size, hm.nodes⟩, by rw [he]; exact h.loaded, by rw [he]; exact h.nItems, ?_, hn1,
    ?_⟩
  · show n ≤ s.nNodes + 1; omega
  · intro x hx
    show s1.alloc.data x = 0
    rw [hd]; apply h.zero
    have : s.nNodes * c.L.nodeSize ≤ (s.nNodes + 1) * c.L.nodeSize := Nat.mul_le_mul_right _ (by omega)
    have : (s.nNodes + 1) * c.L.nodeSize ≤ x := hx
    omega

/-- Writing inside an existing node keeps the invariant. -/
theorem BInv.write {s : Idx c} {n : Nat} (h : s.BInv n) {i : Nat} (hi : i < s.nNodes)
    (f : Bytes → Bytes)
    (hf : ∀ x, (x < i * c.L.nodeSize ∨ i * c.L.nodeSize + c.L.nodeSize ≤ x) →
      f s.alloc.data x = s.alloc.data x) : (s.write f).BInv n := by
  refine ⟨⟨h.memOK.fits, h.memOK.size, h.memOK.nodes⟩, h.loaded, h.nItems, h.n_le, h.le_size, ?_⟩
  intro x hx
  show f s.alloc.data x = 0
  have := Nat.mul_le_mul_right c.L.nodeSize hi
  rw [Nat.succ_mul] at this
  have hx' : s.nNodes * c.L.nodeSize ≤ x := hx
  rw [hf x (Or.inr (by omega))]
  exact h.zero x hx'

/-- Taking a node and writing into it. -/
theorem takeWrite_spec (hL : c.L.Ok c.C.sz) {s : Idx c} {n : Nat} (h : s.BInv n)
    (hf : c.L.Fits (s.nNodes + 1)) (f : Nat → Bytes → Bytes)
    (hfr : ∀ a b x, (x < a ∨ a + c.L.nodeSize ≤ x) → f a b x = b x) :
    getNode c.L s.takeNode.2.bmem s.takeNode.1 = .ok (s.nNodes * c.L.nodeSize) ∧
    Ext s (s.takeNode.2.write (f (s.nNodes * c.L.nodeSize))) n ∧
    (s.takeNode.2.write (f (s.nNodes * c.L.nodeSize))).nNodes = s.nNodes + 1 ∧
    (s.takeNode.2.write (f (s.nNodes * c.L.nodeSize))).alloc.data =
      f (s.nNodes * c.L.nodeSize) s.alloc.data := by
  obtain ⟨h1, h2, h3, h4, h5, h6⟩ := takeNode_spec hL h hf
  refine ⟨?_, ?_, h3, ?_⟩
  · rw [h1]
    exact (h2.memOK.getNode (by have := h2.le_size; omega)).1
  · have hb : (s.takeNode.2.write (f (s.nNodes * c.L.nodeSize))).BInv n :=
      h2.write (i := s.nNodes) (by omega) _ (fun x hx => hfr _ _ _ hx)
    refine ⟨hb, ?_, ?_, h5, h6⟩
    · show s.nNodes ≤ s.takeNode.2.nNodes; omega
    · intro x hx
      show f _ s.takeNode.2.alloc.data x = _
      rw [hfr _ _ _ (Or.inl hx), h4]
  · show f _ s.takeNode.2.alloc.data = _
    rw [h4]

/-! ### the split choice -/

theorem assignSides_perm (side : Nat → c.R.σ → Except Err (Side × c.R.σ)) (ids : List Nat)
    (r : c.R.σ) {l rt : List Nat} {r' : c.R.σ} (h : assignSides side ids r = .ok (l, rt, r')) :
    (l ++ rt).Perm ids := by
  induction ids generalizing r l rt r' with
  | nil => simp only [assignSides] at h; cases h; simp
  | cons j js ih =>
    simp only [assignSides, bind, Except.bind] at h
    split at h
    · cases h
    · next v hv =>
      obtain ⟨sd, r1⟩ := v
      dsimp only at h
      split at h
      · cases h
      · next v hv2 =>
        obtain ⟨l1, rt1, r2⟩ := v
        dsimp only at h
        have := ih _ hv2
        cases sd with
        | left => cases h; simpa using this
        | right =>
          cases h
          exact List.perm_middle.trans (this.cons j)

theorem trySplit_perm (mem : Block) (addrs ids : List Nat) (k : Nat) (m : Bytes) (l rt : List Nat)
    (r : c.R.σ) (hp : 0 < k ∨ (l ++ rt).Perm ids) {m' : Bytes} {l' rt' : List Nat} {r' : c.R.σ}
    (h : trySplit c mem addrs ids k m l rt r = .ok (m', l', rt', r')) : (l' ++ rt').Perm ids := by
  induction k generalizing m l rt r with
  | zero =>
    simp only [trySplit] at h; cases h
    rcases hp with hp | hp
    · omega
    · exact hp
  | succ k ih =>
    simp only [trySplit, bind, Except.bind] at h
    split at h
    · cases h
    · next v hv =>
      obtain ⟨m1, r1⟩ := v
      dsimp only at h
      split at h
      · cases h
      · next v hv2 =>
        obtain ⟨l1, rt1, r2⟩ := v
        dsimp only at h
        have hp1 := assignSides_perm _ _ _ hv2
        split at h
        · cases h; exact hp1
        · exact ih _ _ _ _ (Or.inr hp1) h

theorem randomize_spec (hc : c.WF) (ids : List Nat) (fuel : Nat) (m : Bytes) (l rt : List Nat)
    (r : c.R.σ) (hp : (l ++ rt).Perm ids) {m' : Bytes} {l' rt' : List Nat} {r' : c.R.σ}
    (h : randomize c ids fuel m l rt r = .ok (m', l', rt', r')) :
    (l' ++ rt').Perm ids ∧ l' ≠ [] ∧ rt' ≠ [] := by
  induction fuel generalizing m l rt r with
  | zero => simp only [randomize] at h; cases h
  | succ k ih =>
    simp only [randomize] at h
    split at h
    · next h99 =>
      cases h
      obtain ⟨h1, h2⟩ := hc.le99 _ _ h99
      exact ⟨hp, List.length_pos_iff.1 h1, List.length_pos_iff.1 h2⟩
    · simp only [bind, Except.bind] at h
      split at h
      · cases h
      · next v hv =>
        obtain ⟨l1, rt1, r1⟩ := v
        dsimp only at h
        exact ih _ _ _ _ (assignSides_perm _ _ _ hv) h

theorem chooseSplit_spec (hc : c.WF) (rf : Nat) (s : Idx c) (ids : List Nat) {m : Bytes}
    {l rt : List Nat} {s' : Idx c} (h : chooseSplit rf s ids = .ok (m, l, rt, s')) :
    (l ++ rt).Perm ids ∧ l ≠ [] ∧ rt ≠ [] ∧ ∃ r, s' = { s with rng := r } := by
  simp only [chooseSplit, bind, Except.bind] at h
  split at h
  · cases h
  · split at h
    · cases h
    · next v hv =>
      obtain ⟨m1, l1, rt1, r1⟩ := v
      dsimp only at h
      split at h
      · cases h
      · next v hv2 =>
        obtain ⟨m2, l2, rt2, r2⟩ := v
        dsimp only at h
        cases h
        have hp := trySplit_perm _ _ _ _ _ _ _ _ (Or.inl (by omega)) hv
        obtain ⟨h1, h2, h3⟩ := randomize_spec hc _ _ _ _ _ _ hp hv2
        exact ⟨h1, h2, h3, _, rfl⟩

/-! ### the reason of a split -/

theorem assignSides_sent (side : Nat → c.R.σ → Except Err (Side × c.R.σ)) (ids : List Nat)
    (r : c.R.σ) {l rt : List Nat} {r' : c.R.σ} (h : assignSides side ids r = .ok (l, rt, r')) :
    (∀ i ∈ l, ∃ q q', side i q = .ok (.left, q')) ∧ ∀ i ∈ rt, ∃ q q', side i q = .ok (.right, q') := by
  induction ids generalizing r l rt r' with
  | nil => simp only [assignSides] at h; cases h; simp
  | cons j js ih =>
    simp only [assignSides, bind, Except.bind] at h
    split at h
    · cases h
    · next v hv =>
      obtain ⟨sd, r1⟩ := v
      dsimp only at h
      split at h
      · cases h
      · next v hv2 =>
        obtain ⟨l1, rt1, r2⟩ := v
        dsimp only at h
        obtain ⟨h1, h2⟩ := ih _ hv2
        cases sd with
        | left =>
          cases h
          refine ⟨fun i hi => ?_, h2⟩
          rcases List.mem_cons.1 hi with rfl | hi
          · exact ⟨_, _, hv⟩
          · exact h1 i hi
        | right =>
          cases h
          refine ⟨h1, fun i hi => ?_⟩
          rcases List.mem_cons.1 hi with rfl | hi
          · exact ⟨_, _, hv⟩
          · exact h2 i hi

/-- Where a hyperplane sends an item, in the words of the specification. -/
theorem sideOfItem_sent {mem : Block} {b m : Bytes} {i : Nat} {q q' : c.R.σ} {sd : Side}
    (h : sideOfItem c mem m i q = .ok (sd, q')) (hg : getNode c.L mem i = .ok (i * c.L.nodeSize))
    (hv : Node.vec c.L c.C mem.get (i * c.L.nodeSize) = Node.vec c.L c.C b (i * c.L.nodeSize)) :
    SentTo c b m i sd := by
  unfold sideOfItem at h
  rw [hg] at h
  simp only [bind, Except.bind, hv] at h
  exact ⟨q, q', h⟩

/-- The attempts, of which `j` were made before, and the last one. -/
theorem trySplit_last {mem : Block} {b : Bytes} {n : Nat} {ids : List Nat} (hb : ∀ x, x < n * c.L.nodeSize → mem.get x = b x)
    (hside : ∀ m i sd q q', i ∈ ids → sideOfItem c mem m i q = .ok (sd, q') → SentTo c b m i sd) (k : Nat) :
    ∀ (j : Nat) (m : Bytes) (l rt : List Nat) (r : c.R.σ) {m' : Bytes} {l' rt' : List Nat} {r' : c.R.σ}, j + (k + 1) = 3 → Spoilt c b n ids j m →
      trySplit c mem (ids.map (· * c.L.nodeSize)) ids (k + 1) m l rt r = .ok (m', l', rt', r') → LastTry c b n ids m' l' rt' := by
  induction k with
  | zero =>
    intro j m l rt r m' l' rt' r' hj hm h
    simp only [trySplit, bind, Except.bind] at h
    split at h
    · cases h
    · next v hv =>
      obtain ⟨m1, r1⟩ := v
      dsimp only at h
      split at h
      · cases h
      · next v hv2 =>
        obtain ⟨l1, rt1, r2⟩ := v
        dsimp only at h
        have hs := assignSides_sent _ _ _ hv2
        have hp := assignSides_perm _ _ _ hv2
        have hd : Divides c b m1 l1 rt1 :=
          ⟨fun i hi => (hs.1 i hi).elim fun q hq => hq.elim fun q' hq => hside _ _ _ _ _ (hp.mem_iff.1 (by simp [hi])) hq,
            fun i hi => (hs.2 i hi).elim fun q hq => hq.elim fun q' hq => hside _ _ _ _ _ (hp.mem_iff.1 (by simp [hi])) hq⟩
        split at h <;> cases h <;> exact ⟨j, m, by omega, hm, ⟨_, _, _, hb, hv⟩, hp, hd, Or.inr (by omega)⟩
  | succ k ih =>
    intro j m l rt r m' l' rt' r' hj hm h
    rw [trySplit] at h
    simp only [bind, Except.bind] at h
    split at h
    · cases h
    · next v hv =>
      obtain ⟨m1, r1⟩ := v
      dsimp only at h
      split at h
      · cases h
      · next v hv2 =>
        obtain ⟨l1, rt1, r2⟩ := v
        dsimp only at h
        have hs := assignSides_sent _ _ _ hv2
        have hp := assignSides_perm _ _ _ hv2
        have hd : Divides c b m1 l1 rt1 :=
          ⟨fun i hi => (hs.1 i hi).elim fun q hq => hq.elim fun q' hq => hside _ _ _ _ _ (hp.mem_iff.1 (by simp [hi])) hq,
            fun i hi => (hs.2 i hi).elim fun q hq => hq.elim fun q' hq => hside _ _ _ _ _ (hp.mem_iff.1 (by simp [hi])) hq⟩
        split at h
        · next h95 => cases h; exact ⟨j, m, by omega, hm, ⟨_, _, _, hb, hv⟩, hp, hd, Or.inl h95⟩
        · next h95 => exact ih (j + 1) _ _ _ _ (by omega) (.more hm ⟨_, _, _, hb, hv⟩ hp hd (by simpa using h95)) h

theorem setVec_setVec (m : Bytes) (a : Nat) (v w : List c.N.V) (h : v.length = w.length) :
    Node.setVec c.L c.C (Node.setVec c.L c.C m a v) a w = Node.setVec c.L c.C m a w := by
  apply Bytes.ext'
  intro x
  have e1 := Node.flatMap_enc_length (C := c.C) v
  have e2 := Node.flatMap_enc_length (C := c.C) w
  unfold Node.setVec
  simp only [writeBytes_apply, e1, e2, h]
  split <;> rfl

theorem randomize_sides (ids : List Nat) (fuel : Nat) (m : Bytes) (l rt : List Nat)
    (r : c.R.σ) {m' : Bytes} {l' rt' : List Nat} {r' : c.R.σ}
    (h : randomize c ids fuel m l rt r = .ok (m', l', rt', r')) :
    (m' = m ∧ l' = l ∧ rt' = rt) ∨ (c.le99 l.length rt.length = false ∧ m' = Node.setVec c.L c.C m 0 (List.replicate c.L.f c.N.zero)) := by
  induction fuel generalizing m l rt r with
  | zero => simp only [randomize] at h; cases h
  | succ k ih =>
    simp only [randomize] at h
    split at h
    · cases h; exact Or.inl ⟨rfl, rfl, rfl⟩
    · next h99 =>
      simp only [bind, Except.bind] at h
      split at h
      · cases h
      · next v hv =>
        obtain ⟨l1, rt1, r1⟩ := v
        dsimp only at h
        right
        refine ⟨by simpa using h99, ?_⟩
        rcases ih _ _ _ _ h with ⟨e, -, -⟩ | ⟨-, e⟩
        · exact e
        · rw [e, setVec_setVec _ _ _ _ rfl]

theorem randomize_le99 (ids : List Nat) (fuel : Nat) (m : Bytes) (l rt : List Nat)
    (r : c.R.σ) {m' : Bytes} {l' rt' : List Nat} {r' : c.R.σ}
    (h : randomize c ids fuel m l rt r = .ok (m', l', rt', r')) : c.le99 l'.length rt'.length = true := by
  induction fuel generalizing m l rt r with
  | zero => simp only [randomize] at h; cases h
  | succ k ih =>
    simp only [randomize] at h
    split at h
    · next h99 => cases h; exact h99
    · simp only [bind, Except.bind] at h
      split at h
      · cases h
      · next v hv =>
        obtain ⟨l1, rt1, r1⟩ := v
        exact ih _ _ _ _ h

/-- The division `chooseSplit` ends with passed the test of balance. -/
theorem chooseSplit_le99 (rf : Nat) (s : Idx c) (ids : List Nat) {m : Bytes}
    {l rt : List Nat} {s' : Idx c} (h : chooseSplit rf s ids = .ok (m, l, rt, s')) :
    c.le99 l.length rt.length = true := by
  simp only [chooseSplit, bind, Except.bind] at h
  split at h
  · cases h
  · split at h
    · cases h
    · next v hv =>
      obtain ⟨m1, l1, rt1, r1⟩ := v
      dsimp only at h
      split at h
      · cases h
      · next v hv2 =>
        obtain ⟨m2, l2, rt2, r2⟩ := v
        dsimp only at h
        cases h
        exact randomize_le99 _ _ _ _ _ _ hv2

/-- `chooseSplit` divides the items by a hyperplane made for them, or at random. -/
theorem chooseSplit_sides (hc : c.WF) (rf : Nat) {s : Idx c} {n : Nat} (hs : s.BInv n) {ids : List Nat}
    (hids : ∀ x ∈ ids, x < n) {m : Bytes} {l rt : List Nat} {s' : Idx c}
    (h : chooseSplit rf s ids = .ok (m, l, rt, s')) : DivisionBy c s.alloc.data n m l rt := by
  have hperm := (chooseSplit_spec hc rf s ids h).1
  simp only [chooseSplit, bind, Except.bind] at h
  split at h
  · cases h
  · next addrs haddrs =>
    split at h
    · cases h
    · next v hv =>
      obtain ⟨m1, l1, rt1, r1⟩ := v
      dsimp only at h
      split at h
      · cases h
      · next v hv2 =>
        obtain ⟨m2, l2, rt2, r2⟩ := v
        dsimp only at h
        cases h
        have hnle := hs.n_le
        have hsz := hs.le_size
        have hget : ∀ x, x < n → getNode c.L s.bmem x = .ok (x * c.L.nodeSize) ∧ s.bmem.get = s.alloc.data := by
          intro x hx
          refine ⟨(hs.memOK.getNode (i := x) (by omega)).1, ?_⟩
          unfold bmem
          rw [hs.memOK.nodes (by omega)]
          rfl
        have ha : addrs = ids.map (· * c.L.nodeSize) := by
          have := mapM_ok (f := getNode c.L s.bmem) (g := (· * c.L.nodeSize)) (l := ids)
            (fun x hx => (hget x (hids x hx)).1)
          rw [this] at haddrs
          cases haddrs; rfl
        subst ha
        have hb : ∀ x, x < n * c.L.nodeSize → s.bmem.get x = s.alloc.data x := by
          intro x hx
          rw [(hget 0 (by rcases Nat.eq_zero_or_pos n with h | h; · subst h; simp at hx
                          · exact h)).2]
        have hlast := trySplit_last hb (fun m i sd q q' hi hq => sideOfItem_sent hq (hget i (hids i hi)).1 (by rw [(hget i (hids i hi)).2]))
          2 0 zeros [] [] s.rng rfl .none hv
        refine ⟨randomize_le99 _ _ _ _ _ _ hv2, ids, hperm.symm, ?_⟩
        rcases randomize_sides _ _ _ _ _ _ hv2 with ⟨rfl, rfl, rfl⟩ | ⟨e0, e⟩
        · exact Or.inl hlast
        · exact Or.inr ⟨m1, l1, rt1, hlast, e0, e⟩

end Idx
end Annoy
