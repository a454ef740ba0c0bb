import Verif.Spec.Sides
import Verif.Proof.Tree
/-!
Lemmas about `Sided`.
-/
namespace Annoy
variable {c : Cfg}

theorem SameNode.vec (hL : c.L.Ok c.C.sz) {b b' : Bytes} {i : Nat} (h : SameNode c.L b b' i) :
    Node.vec c.L c.C b (i * c.L.nodeSize) = Node.vec c.L c.C b' (i * c.L.nodeSize) := by
  apply Node.vec_congr
  intro j hj
  have := h (c.L.offV + j) (by have := hL.size_eq; omega)
  simpa [Nat.add_assoc] using this

theorem SentTo.congr (hL : c.L.Ok c.C.sz) {b b' m : Bytes} {i : Nat} {sd : Side} (h : SentTo c b m i sd)
    (hs : SameNode c.L b b' i) : SentTo c b' m i sd := by
  unfold SentTo at h ⊢
  rw [← hs.vec hL]
  exact h

theorem Divides.congr (hL : c.L.Ok c.C.sz) {b b' m : Bytes} {l rt : List Nat} (h : Divides c b m l rt)
    (hs : ∀ i, i ∈ l ∨ i ∈ rt → SameNode c.L b b' i) : Divides c b' m l rt :=
  ⟨fun i hi => (h.1 i hi).congr hL (hs i (Or.inl hi)), fun i hi => (h.2 i hi).congr hL (hs i (Or.inr hi))⟩

theorem Divides.perm {b m : Bytes} {l rt l' rt' : List Nat} (h : Divides c b m l rt) (hl : l'.Perm l)
    (hr : rt'.Perm rt) : Divides c b m l' rt' :=
  ⟨fun i hi => h.1 i (hl.mem_iff.1 hi), fun i hi => h.2 i (hr.mem_iff.1 hi)⟩

theorem slot_of_lt {z n x : Nat} (hx : x < n * z) : ∃ i j, i < n ∧ j < z ∧ x = i * z + j := by
  have hz : 0 < z := by
    rcases Nat.eq_zero_or_pos z with h | h
    · subst h; simp at hx
    · exact h
  refine ⟨x / z, x % z, (Nat.div_lt_iff_lt_mul hz).2 hx, Nat.mod_lt _ hz, ?_⟩
  rw [Nat.mul_comm]
  exact (Nat.div_add_mod x z).symm

theorem CutFor.congr {b b' m : Bytes} {n : Nat} {ids : List Nat} (h : CutFor c b n ids m)
    (hs : ∀ i, i < n → SameNode c.L b b' i) : CutFor c b' n ids m := by
  obtain ⟨d, r, m0, r', h1, h2, h3⟩ := h
  refine ⟨d, r, m0, r', fun x hx => ?_, h2, h3⟩
  rw [h1 x hx]
  obtain ⟨i, j, hi, hj, rfl⟩ := slot_of_lt hx
  exact hs i hi j hj

theorem CutFrom.congr {b b' m m' : Bytes} {n : Nat} {ids : List Nat} (h : CutFrom c b n ids m m')
    (hs : ∀ i, i < n → SameNode c.L b b' i) : CutFrom c b' n ids m m' := by
  obtain ⟨d, r, r', h1, h2⟩ := h
  refine ⟨d, r, r', fun x hx => ?_, h2⟩
  rw [h1 x hx]
  obtain ⟨i, j, hi, hj, rfl⟩ := slot_of_lt hx
  exact hs i hi j hj

theorem Spoilt.congr (hL : c.L.Ok c.C.sz) {b b' m : Bytes} {n k : Nat} {ids : List Nat} (h : Spoilt c b n ids k m)
    (hs : ∀ i, i < n → SameNode c.L b b' i) (hlt : ∀ i ∈ ids, i < n) : Spoilt c b' n ids k m := by
  induction h with
  | none => exact .none
  | more _ h2 h3 h4 h5 ih =>
    refine .more ih (h2.congr hs) h3 (h4.congr hL fun i hi => hs i (hlt i (h3.mem_iff.1 ?_))) h5
    exact List.mem_append.2 hi

theorem LastTry.congr (hL : c.L.Ok c.C.sz) {b b' m : Bytes} {n : Nat} {ids l rt : List Nat} (h : LastTry c b n ids m l rt)
    (hs : ∀ i, i < n → SameNode c.L b b' i) (hlt : ∀ i ∈ ids, i < n) : LastTry c b' n ids m l rt := by
  obtain ⟨k, m0, h1, h2, h3, h4, h5, h6⟩ := h
  exact ⟨k, m0, h1, h2.congr hL hs hlt, h3.congr hs, h4, h5.congr hL fun i hi => hs i (hlt i (h4.mem_iff.1 (List.mem_append.2 hi))), h6⟩

theorem Spoilt.scratch {b m : Bytes} {n k : Nat} {ids : List Nat} (h : Spoilt c b n ids k m) : Scratch c m := by
  induction h with
  | none => exact .fresh
  | more _ h2 _ _ _ ih =>
    obtain ⟨d, r, r', -, e⟩ := h2
    exact ih.used e

theorem LastTry.cutFor {b m : Bytes} {n : Nat} {ids l rt : List Nat} (h : LastTry c b n ids m l rt) : CutFor c b n ids m := by
  obtain ⟨k, m0, -, h2, ⟨d, r, r', h3, h4⟩, -⟩ := h
  exact ⟨d, r, m0, r', h3, h2.scratch, h4⟩

/-- Without the history. -/
theorem DivisionBy.simple {b m : Bytes} {n : Nat} {l rt : List Nat} (h : DivisionBy c b n m l rt) :
    c.le99 l.length rt.length = true ∧ ∃ m0 ids, ids.Perm (l ++ rt) ∧ CutFor c b n ids m0 ∧
      ((m = m0 ∧ Divides c b m l rt) ∨ m = Node.setVec c.L c.C m0 0 (List.replicate c.L.f c.N.zero)) := by
  obtain ⟨h0, ids, h1, h2 | ⟨m0, l0, rt0, h2, -, h4⟩⟩ := h
  · refine ⟨h0, m, ids, h1, h2.cutFor, Or.inl ⟨rfl, ?_⟩⟩
    obtain ⟨k, m0, -, -, -, -, h5, -⟩ := h2
    exact h5
  · exact ⟨h0, m0, ids, h1, h2.cutFor, Or.inr h4⟩

theorem DivisionBy.congr (hL : c.L.Ok c.C.sz) {b b' m : Bytes} {n : Nat} {l rt : List Nat} (h : DivisionBy c b n m l rt)
    (hs : ∀ i, i < n → SameNode c.L b b' i) (hlt : ∀ i, i ∈ l ∨ i ∈ rt → i < n) : DivisionBy c b' n m l rt := by
  obtain ⟨h0, ids, h1, h2⟩ := h
  have hlt' : ∀ i ∈ ids, i < n := fun i hi => hlt i (List.mem_append.1 (h1.mem_iff.1 hi))
  refine ⟨h0, ids, h1, h2.imp (fun h => h.congr hL hs hlt') ?_⟩
  rintro ⟨m0, l0, rt0, h3, h4⟩
  exact ⟨m0, l0, rt0, h3.congr hL hs hlt', h4⟩

theorem DivisionBy.perm {b m : Bytes} {n : Nat} {l rt l' rt' : List Nat} (h : DivisionBy c b n m l rt)
    (hl : l'.Perm l) (hr : rt'.Perm rt) : DivisionBy c b n m l' rt' := by
  obtain ⟨h0, ids, h1, h2⟩ := h
  refine ⟨by rw [hl.length_eq, hr.length_eq]; exact h0, ids, h1.trans (hl.append hr).symm, h2.imp ?_ id⟩
  rintro ⟨k, m0, e1, e2, e3, e4, e5, e6⟩
  exact ⟨k, m0, e1, e2, e3, (hl.append hr).trans e4, e5.perm hl hr, by rw [hl.length_eq, hr.length_eq]; exact e6⟩

theorem KeptFrom.congr (hL : c.L.Ok c.C.sz) {b b' m : Bytes} {i : Nat} (h : KeptFrom c b i m)
    (hs : SameNode c.L b b' i) : KeptFrom c b' i m := by
  intro j h1 h2
  rw [← hs j (by have := hL.f_le; omega)]
  exact h j h1 h2

theorem BlankFrom.congr {L : Layout} {b b' : Bytes} {i o : Nat} (h : BlankFrom L b i o) (hs : SameNode L b b' i) :
    BlankFrom L b' i o := by
  intro j h1 h2
  rw [← hs j h2]
  exact h j h1 h2

theorem Sided.congr (hL : c.L.Ok c.C.sz) {b b' : Bytes} {n : Nat} (hs : ∀ i, i < n → SameNode c.L b b' i) {t : Tree}
    (h : Sided c b n t) (hin : ∀ i ∈ t.inner, SameNode c.L b b' i) (hlt : ∀ i ∈ t.items, i < n) :
    Sided c b' n t := by
  induction t with
  | item i => trivial
  | hole i => trivial
  | bucket i ids => trivial
  | split i l r ihl ihr =>
    have hsi := hin i (by simp [Tree.inner])
    rcases h with ⟨⟨m, h1, h2⟩, h3, h4⟩ | ⟨h1, h2⟩
    · refine Or.inl ⟨⟨m, h1.congr hL hs ?_, h2.congr hL hsi⟩, ihl h3 ?_ ?_, ihr h4 ?_ ?_⟩
      · intro k hk; exact hlt k (List.mem_append.2 hk)
      · intro k hk; exact hin k (by simp [Tree.inner, hk])
      · intro k hk; exact hlt k (List.mem_append.2 (Or.inl hk))
      · intro k hk; exact hin k (by simp [Tree.inner, hk])
      · intro k hk; exact hlt k (List.mem_append.2 (Or.inr hk))
    · exact Or.inr ⟨h1, h2.congr hsi⟩

theorem SidedTree.congr (hL : c.L.Ok c.C.sz) {b b' : Bytes} {n : Nat} (hs : ∀ i, i < n → SameNode c.L b b' i)
    {t : Tree} (h : SidedTree c b n t) (hin : ∀ i ∈ t.inner, SameNode c.L b b' i) : SidedTree c b' n t :=
  ⟨h.1.congr hL (fun i hi => (hs i hi).nd hL) hin, h.2.congr hL hs hin fun i hi => (h.1.items_isItem i hi).1⟩

theorem SidedRoot.congr (hL : c.L.Ok c.C.sz) {b b' : Bytes} {n : Nat} {live : List Nat}
    (hs : ∀ i, i < n → SameNode c.L b b' i)
    {t : Tree} (h : SidedRoot c b n live t) (hin : ∀ i ∈ t.inner, SameNode c.L b b' i) : SidedRoot c b' n live t := by
  refine ⟨h.1.congr hL (fun i hi => (hs i hi).nd hL) hin, ?_⟩
  obtain ⟨h1, h2⟩ := h
  cases t with
  | item i => trivial
  | hole i => trivial
  | bucket i ids => trivial
  | split i l r =>
    refine h2.congr hL hs hin ?_
    obtain ⟨-, -, -, -, -, -, -, h8⟩ := h1
    intro k hk
    rcases h8 with ⟨-, -, -, h11, h12⟩ | ⟨j, -, h9, h10, h11, -⟩
    · rcases List.mem_append.1 hk with hk | hk
      · exact (h11.items_isItem k hk).1
      · exact (h12.items_isItem k hk).1
    · rw [h10, h11] at hk
      simp [Tree.items] at hk
      subst hk
      exact h9.1

end Annoy
