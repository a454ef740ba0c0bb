import Verif.Proof.Term
import Verif.Model.Policy
import Verif.Props.Items
import Verif.Model.IO
/-!
A larger block changes nothing: whatever works with a block of memory works the same with a larger block of the
same content.
-/
namespace Annoy

/-- The same content in a block at least as large. -/
def Block.Le (m m' : Block) : Prop := m.size ≤ m'.size ∧ m.get = m'.get

section
variable {c : Cfg} {m m' : Block}

theorem getNode_le {L : Layout} (h : m.Le m') {i a : Nat} (e : getNode L m i = .ok a) : getNode L m' i = .ok a := by
  obtain ⟨rfl, h1⟩ := Idx.getNode_ok e
  exact Idx.getNode_eq (h1.trans h.1)

theorem bind_le {α β : Type} {x x' : Except Err α} {f f' : α → Except Err β} {y : β}
    (h : (x >>= f) = .ok y) (hx : ∀ a, x = .ok a → x' = .ok a) (hf : ∀ a, f a = .ok y → f' a = .ok y) :
    (x' >>= f') = .ok y := by
  cases hxe : x with
  | error e => rw [hxe] at h; cases h
  | ok a =>
    rw [hx a hxe]
    rw [hxe] at h
    exact hf a h

theorem mapM_le {α β : Type} {f f' : α → Except Err β} {l : List α} (hf : ∀ a ∈ l, ∀ b, f a = .ok b → f' a = .ok b) :
    ∀ {r}, l.mapM f = .ok r → l.mapM f' = .ok r := by
  induction l with
  | nil => intro r h; exact h
  | cons a l ih =>
    intro r h
    rw [List.mapM_cons] at h ⊢
    exact bind_le h (hf a (by simp)) fun b hb =>
      bind_le hb (fun bs hbs => ih (fun a ha => hf a (by simp [ha])) hbs) fun bs h => h

theorem sideOfItem_le (h : m.Le m') {tmp : Bytes} {j : Nat} {r : c.R.σ} {x}
    (e : Idx.sideOfItem c m tmp j r = .ok x) : Idx.sideOfItem c m' tmp j r = .ok x := by
  unfold Idx.sideOfItem at e ⊢
  refine bind_le e (fun a ha => getNode_le h ha) fun a ha => ?_
  rw [← h.2]
  exact ha

theorem assignSides_le {side side' : Nat → c.R.σ → Except Err (Side × c.R.σ)} {ids : List Nat}
    (h : ∀ j r x, side j r = .ok x → side' j r = .ok x) :
    ∀ {r x}, Idx.assignSides side ids r = .ok x → Idx.assignSides side' ids r = .ok x := by
  induction ids with
  | nil => intro r x e; exact e
  | cons j ids ih =>
    intro r x e
    unfold Idx.assignSides at e ⊢
    refine bind_le e (h j r) fun a ha => ?_
    obtain ⟨sd, r1⟩ := a
    exact bind_le ha (fun b hb => ih hb) fun b hb => hb

theorem trySplit_le (h : m.Le m') {addrs ids : List Nat} {k : Nat} : ∀ {tmp l rt} {r : c.R.σ} {x},
    Idx.trySplit c m addrs ids k tmp l rt r = .ok x → Idx.trySplit c m' addrs ids k tmp l rt r = .ok x := by
  induction k with
  | zero => intro tmp l rt r x e; exact e
  | succ k ih =>
    intro tmp l rt r x e
    unfold Idx.trySplit at e ⊢
    rw [← h.2]
    refine bind_le e (fun a ha => ha) fun a ha => ?_
    obtain ⟨m1, r1⟩ := a
    refine bind_le ha (fun b hb => assignSides_le (fun j r x hx => sideOfItem_le h hx) hb) fun b hb => ?_
    obtain ⟨l1, rt1, r2⟩ := b
    dsimp only at hb ⊢
    split
    · next h1 => rw [if_pos h1] at hb; exact hb
    · next h1 => rw [if_neg h1] at hb; exact ih hb

theorem liveItems_le (h : m.Le m') {n : Nat} {x} (e : Idx.liveItems c m n = .ok x) : Idx.liveItems c m' n = .ok x := by
  unfold Idx.liveItems at e ⊢
  refine bind_le e (fun a ha => mapM_le ?_ ha) fun a ha => ha
  intro i _ b hb
  refine bind_le hb (fun a ha => getNode_le h ha) fun a ha => ?_
  rw [← h.2]
  exact ha

theorem nnsOf_le (h : m.Le m') {n i : Nat} {x} (e : Idx.nnsOf c m n i = .ok x) : Idx.nnsOf c m' n i = .ok x := by
  unfold Idx.nnsOf at e ⊢
  refine bind_le e (fun a ha => getNode_le h ha) fun a ha => ?_
  rw [← h.2]
  exact ha

theorem countNNS_le (h : m.Le m') {n k : Nat} {x} (e : Idx.countNNS c m n k = .ok x) :
    Idx.countNNS c m' n k = .ok x := by
  unfold Idx.countNNS at e ⊢
  exact bind_le e (fun a ha => mapM_le (fun i _ b hb => nnsOf_le h hb) ha) fun a ha => ha

theorem loop_le (h : m.Le m') {n : Nat} {query : List c.N.V} {budget : Int} (fuel : Nat) : ∀ {q buf cnt x},
    Search.loop c m n query budget fuel q buf cnt = .ok x → Search.loop c m' n query budget fuel q buf cnt = .ok x := by
  induction fuel with
  | zero => intro q buf cnt x e; cases e
  | succ fuel ih =>
    intro q buf cnt x e
    unfold Search.loop at e ⊢
    split
    · next h1 =>
      rw [if_pos h1] at e
      cases hp : Heap.pop (pairLess c.N) q with
      | none => rw [hp] at e; exact e
      | some p =>
        obtain ⟨⟨d, i⟩, q'⟩ := p
        rw [hp] at e
        dsimp only at e ⊢
        refine bind_le e (fun a ha => getNode_le h ha) fun a ha => ?_
        rw [← h.2]
        split
        · next h2 =>
          rw [if_pos h2] at ha
          split
          · next h3 => rw [if_pos h3] at ha; exact ih ha
          · next h3 => rw [if_neg h3] at ha; exact ha
        · next h2 =>
          rw [if_neg h2] at ha
          split
          · next h3 =>
            rw [if_pos h3] at ha
            split
            · next h4 => rw [if_pos h4] at ha; exact ih ha
            · next h4 => rw [if_neg h4] at ha; exact ha
          · next h3 =>
            rw [if_neg h3] at ha
            exact bind_le ha (fun b hb => hb) fun b hb => ih hb
    · next h1 => rw [if_neg h1] at e; exact e

theorem distances_le (h : m.Le m') {vn : Bytes} (js : List Nat) : ∀ {last x},
    Search.distances c m vn last js = .ok x → Search.distances c m' vn last js = .ok x := by
  induction js with
  | nil => intro last x e; exact e
  | cons j js ih =>
    intro last x e
    unfold Search.distances at e ⊢
    split
    · next h1 => rw [if_pos h1] at e; exact ih e
    · next h1 =>
      rw [if_neg h1] at e
      refine bind_le e (fun a ha => getNode_le h ha) fun a ha => ?_
      refine bind_le ha (fun b hb => ih hb) fun b hb => ?_
      rw [← h.2]
      exact hb

theorem run_le (h : m.Le m') {fuel n : Nat} {roots : List Nat} {query : List c.N.V} {k b : Int} {ctx : Ctx c} {x}
    (e : Search.run c fuel m n roots query k b ctx = .ok x) :
    Search.run c fuel m' n roots query k b ctx = .ok x := by
  unfold Search.run at e ⊢
  refine bind_le e (fun a ha => loop_le h fuel ha) fun a ha => ?_
  obtain ⟨buf, cnt⟩ := a
  dsimp only at ha ⊢
  split
  · next h1 => rw [if_pos h1] at ha; exact ha
  · next h1 =>
    rw [if_neg h1] at ha
    refine bind_le ha (fun b hb => hb) fun b hb => ?_
    exact bind_le hb (fun d hd => distances_le h _ hd) fun d hd => hd

end

namespace Idx
variable {c : Cfg}

/-- `t` is `s` with a block that is at least as large; nothing is stored behind the block of `s`. -/
structure Le (s t : Idx c) : Prop where
  eq : t = { s with alloc := ⟨t.alloc.present, t.alloc.size, s.alloc.data⟩ }
  size : s.alloc.size ≤ t.alloc.size
  present : s.alloc.present = true → t.alloc.present = true
  tight : ∀ x, s.alloc.size ≤ x → s.alloc.data x = 0
  absent : s.alloc.present = false → s.alloc.size = 0

namespace Le
variable {s t : Idx c}

theorem data (h : s.Le t) : t.alloc.data = s.alloc.data := by rw [h.eq]
theorem nItems (h : s.Le t) : t.nItems = s.nItems := by rw [h.eq]
theorem nNodes (h : s.Le t) : t.nNodes = s.nNodes := by rw [h.eq]
theorem nodesSize (h : s.Le t) : t.nodesSize = s.nodesSize := by rw [h.eq]
theorem nodes (h : s.Le t) : t.nodes = s.nodes := by rw [h.eq]
theorem roots (h : s.Le t) : t.roots = s.roots := by rw [h.eq]
theorem rng (h : s.Le t) : t.rng = s.rng := by rw [h.eq]
theorem loaded (h : s.Le t) : t.loaded = s.loaded := by rw [h.eq]
theorem built (h : s.Le t) : t.built = s.built := by rw [h.eq]
theorem batchMaxNNS (h : s.Le t) : t.batchMaxNNS = s.batchMaxNNS := by rw [h.eq]

theorem bmem (h : s.Le t) : s.bmem.Le t.bmem := by
  unfold Idx.bmem
  rw [h.nodes]
  split
  · exact ⟨h.size, h.data.symm⟩
  · exact ⟨le_rfl, rfl⟩

theorem mem (h : s.Le t) (w : World) : (s.mem w).Le (t.mem w) := by
  unfold Idx.mem
  rw [h.nodes]
  split
  · exact ⟨le_rfl, rfl⟩
  · exact ⟨h.size, h.data.symm⟩
  · exact ⟨le_rfl, rfl⟩

/-- Changing another field keeps the relation. -/
theorem of_fields (h : s.Le t) {s' t' : Idx c} (e : t' = { s' with alloc := ⟨t'.alloc.present, t'.alloc.size, s'.alloc.data⟩ })
    (hs : s'.alloc = s.alloc) (ht : t'.alloc = t.alloc) : s'.Le t' :=
  ⟨e, by rw [hs, ht]; exact h.size, by rw [hs, ht]; exact h.present, by rw [hs]; exact h.tight,
    by rw [hs]; exact h.absent⟩

theorem withRng (h : s.Le t) (r : c.R.σ) : ({ s with rng := r } : Idx c).Le { t with rng := r } :=
  h.of_fields (by rw [h.eq]) rfl rfl

theorem withNNodes (h : s.Le t) (v : Nat) : ({ s with nNodes := v } : Idx c).Le { t with nNodes := v } :=
  h.of_fields (by rw [h.eq]) rfl rfl

theorem withRoots (h : s.Le t) (v : List Nat) : ({ s with roots := v } : Idx c).Le { t with roots := v } :=
  h.of_fields (by rw [h.eq]) rfl rfl

theorem realloc (h : s.Le t) (z b : Nat) :
    ({ s with nodes := .build, alloc := s.alloc.reallocate b, nodesSize := z } : Idx c).Le
      { t with nodes := .build, alloc := t.alloc.reallocate b, nodesSize := z } := by
  have hd := h.data
  have hsz := h.size
  have hdata : ∀ {u : Idx c}, u.alloc.data = s.alloc.data → s.alloc.size ≤ u.alloc.size →
      (u.alloc.reallocate b).data = s.alloc.data := by
    intro u e1 e2
    unfold Alloc.reallocate
    split
    · exact e1
    · apply Bytes.ext'
      intro x
      show (if x < u.alloc.size then u.alloc.data x else 0) = _
      rw [e1]
      split
      · rfl
      · exact (h.tight x (by omega)).symm
  refine ⟨?_, ?_, ?_, ?_, ?_⟩
  · have e1 := hdata hd hsz
    have e2 := hdata (u := s) rfl le_rfl
    have e3 : t.alloc.reallocate b = ⟨(t.alloc.reallocate b).present, (t.alloc.reallocate b).size, s.alloc.data⟩ := by
      rw [← e1]
    conv_lhs => rw [e3]
    dsimp only
    rw [e2]
    have := h.eq
    rw [this]
  · show (s.alloc.reallocate b).size ≤ (t.alloc.reallocate b).size
    unfold Alloc.reallocate
    split
    · next h1 => rw [if_pos ⟨h.present h1.1, by omega⟩]; exact hsz
    · split
      · next h2 => dsimp only; omega
      · exact le_rfl
  · intro h1
    show (t.alloc.reallocate b).present = true
    have h1 : (s.alloc.reallocate b).present = true := h1
    unfold Alloc.reallocate at h1 ⊢
    split
    · next h2 => exact h2.1
    · rfl
  · intro x hx
    have hx : (s.alloc.reallocate b).size ≤ x := hx
    show (s.alloc.reallocate b).data x = 0
    unfold Alloc.reallocate at hx ⊢
    split
    · next h1 => rw [if_pos h1] at hx; exact h.tight x hx
    · next h1 =>
      rw [if_neg h1] at hx
      show (if x < s.alloc.size then s.alloc.data x else 0) = 0
      split
      · next h3 =>
        exfalso
        have hx : b ≤ x := hx
        cases hp : s.alloc.present with
        | false => have := h.absent hp; omega
        | true => exact h1 ⟨hp, by omega⟩
      · rfl
  · intro h1
    have h1 : (s.alloc.reallocate b).present = false := h1
    unfold Alloc.reallocate at h1
    split at h1
    · next h2 => rw [h2.1] at h1; cases h1
    · cases h1

/-- Writing inside an accessible node keeps the relation. -/
theorem write (h : s.Le t) {f : Bytes → Bytes} (hf : ∀ x, s.alloc.size ≤ x → f s.alloc.data x = s.alloc.data x) :
    (s.write f).Le (t.write f) := by
  refine ⟨?_, h.size, h.present, ?_, h.absent⟩
  · unfold Idx.write
    dsimp only
    rw [h.data]
    rw [h.eq]
  · intro x hx
    show f s.alloc.data x = 0
    rw [hf x hx]
    exact h.tight x hx

theorem allocateSize (h : s.Le t) (n : Nat) : (s.allocateSize n).Le (t.allocateSize n) := by
  unfold Idx.allocateSize
  rw [h.nodesSize]
  split
  · exact h.realloc _ _
  · exact h

theorem getNode (h : s.Le t) {i a : Nat} (e : Annoy.getNode c.L s.bmem i = .ok a) :
    Annoy.getNode c.L t.bmem i = .ok a := getNode_le h.bmem e

/-- An accessible node lies inside the block. -/
theorem bound {i a : Nat} (e : Annoy.getNode c.L s.bmem i = .ok a) : a + c.L.nodeSize ≤ s.alloc.size ∨ c.L.nodeSize = 0 := by
  obtain ⟨rfl, h1⟩ := Idx.getNode_ok e
  unfold Idx.bmem at h1
  split at h1
  · exact Or.inl h1
  · have : c.L.addr i + c.L.nodeSize ≤ 0 := h1
    omega

theorem addItem (hc : c.WF) (h : s.Le t) {i : Nat} {v : List c.N.V} {s' : Idx c} (e : s.addItem i v = .ok s') :
    ∃ t', t.addItem i v = .ok t' ∧ s'.Le t' := by
  unfold Idx.addItem at e ⊢
  rw [h.loaded]
  split at e
  · cases e
  · split at e
    · cases e
    · next h1 h2 =>
      rw [if_neg h1, if_neg h2]
      have hA := h.allocateSize (c.L.wrap (i + 1))
      simp only [bind, Except.bind] at e ⊢
      split at e
      · cases e
      · next a ha =>
        rw [hA.getNode ha]
        dsimp only
        have hb := bound ha
        have hp := hc.layout.nodeSize_pos
        have hW := hA.write (f := fun b => c.D.initNode (Node.setVec c.L c.C (Node.setNDesc c.L b a 1) a v) a) (by
          intro x hx
          obtain ⟨w, hw, hi, _⟩ := hc.initNode
          have h3 := hc.layout.three_le
          have hL := hc.layout.size_eq
          have hlen : v.length = c.L.f := by simpa using h2
          rw [hi _ _ _ (Or.inr (by omega)), Node.setVec_frame _ _ _ _ _ (Or.inr (by rw [hlen]; omega)),
            Node.setNDesc_frame _ _ _ _ (Or.inr (by omega))])
        revert e hW
        generalize (s.allocateSize (c.L.wrap (i + 1))).write _ = s1
        generalize (t.allocateSize (c.L.wrap (i + 1))).write _ = t1
        intro e hW
        rw [hW.nItems]
        split
        · next h3 =>
          rw [if_pos h3] at e
          cases e
          exact ⟨_, rfl, hW.of_fields (by rw [hW.eq]) rfl rfl⟩
        · next h3 =>
          rw [if_neg h3] at e
          cases e
          exact ⟨_, rfl, hW⟩

theorem addAll (hc : c.WF) (adds : List (Nat × List c.N.V)) : ∀ {s t s' : Idx c}, s.Le t → s.addAll adds = .ok s' →
    ∃ t', t.addAll adds = .ok t' ∧ s'.Le t' := by
  induction adds with
  | nil => intro s t s' h e; cases e; exact ⟨t, rfl, h⟩
  | cons p adds ih =>
    intro s t s' h e
    obtain ⟨i, v⟩ := p
    unfold Idx.addAll at e ⊢
    simp only [bind, Except.bind] at e ⊢
    split at e
    · cases e
    · next s1 h1 =>
      obtain ⟨t1, e1, l1⟩ := h.addItem hc h1
      rw [e1]
      exact ih l1 e

theorem takeNode (h : s.Le t) : t.takeNode.1 = s.takeNode.1 ∧ s.takeNode.2.Le t.takeNode.2 := by
  unfold Idx.takeNode
  dsimp only
  rw [h.nNodes]
  have hA := h.allocateSize (c.L.wrap (s.nNodes + 1))
  rw [hA.nNodes]
  exact ⟨rfl, hA.withNNodes _⟩

theorem makeBucket (hc : c.WF) (h : s.Le t) {ids : List Nat} {isRoot : Bool} (hK : ids.length ≤ c.L.K) {i : Nat}
    {s' : Idx c} (e : s.makeBucket ids isRoot = .ok (i, s')) :
    ∃ t', t.makeBucket ids isRoot = .ok (i, t') ∧ s'.Le t' := by
  unfold Idx.makeBucket at e ⊢
  obtain ⟨h1, h2⟩ := h.takeNode
  simp only [bind, Except.bind] at e ⊢
  split at e
  · cases e
  · next a ha =>
    rw [h1, h2.getNode ha]
    dsimp only
    have hb := bound ha
    have hp := hc.layout.nodeSize_pos
    cases e
    refine ⟨_, rfl, ?_⟩
    rw [h2.nItems]
    apply h2.write
    intro x hx
    split
    · rw [Node.bucket_frame hc.layout _ _ _ _ hK _ (Or.inr (by omega))]
    · rw [Node.setNDesc_frame _ _ _ _ (Or.inr (by have := hc.layout.three_le; omega))]

theorem placeSplit (hc : c.WF) (h : s.Le t) {m : Bytes} {i : Nat} {s' : Idx c} (e : s.placeSplit m = .ok (i, s')) :
    ∃ t', t.placeSplit m = .ok (i, t') ∧ s'.Le t' := by
  unfold Idx.placeSplit at e ⊢
  obtain ⟨h1, h2⟩ := h.takeNode
  simp only [bind, Except.bind] at e ⊢
  split at e
  · cases e
  · next a ha =>
    rw [h1, h2.getNode ha]
    dsimp only
    have hb := bound ha
    have hp := hc.layout.nodeSize_pos
    cases e
    refine ⟨_, rfl, ?_⟩
    apply h2.write
    intro x hx
    exact Node.copyNode_frame _ _ _ _ _ _ (Or.inr (by have := hc.layout.f_le; omega))

theorem chooseSplit (h : s.Le t) {rf : Nat} {ids l rt : List Nat} {m : Bytes} {s' : Idx c}
    (e : s.chooseSplit rf ids = .ok (m, l, rt, s')) :
    ∃ t', t.chooseSplit rf ids = .ok (m, l, rt, t') ∧ s'.Le t' := by
  unfold Idx.chooseSplit at e ⊢
  simp only [bind, Except.bind] at e ⊢
  split at e
  · cases e
  · next addrs ha =>
    rw [mapM_le (fun i _ b hb => h.getNode hb) ha]
    dsimp only
    split at e
    · cases e
    · next v hv =>
      rw [h.rng, trySplit_le h.bmem hv]
      dsimp only
      split at e
      · cases e
      · next u hu =>
        cases e
        exact ⟨_, rfl, h.withRng _⟩

theorem makeTree (hc : c.WF) {rf tf : Nat} : ∀ {s t s' : Idx c} {ids : List Nat} {isRoot : Bool} {i : Nat}, s.Le t →
    s.makeTree rf tf ids isRoot = .ok (i, s') → ∃ t', t.makeTree rf tf ids isRoot = .ok (i, t') ∧ s'.Le t' := by
  induction tf with
  | zero => intro s t s' ids isRoot i _ e; cases e
  | succ tf ih =>
    intro s t s' ids isRoot i h e
    unfold Idx.makeTree at e ⊢
    split at e
    · cases e; exact ⟨t, rfl, h⟩
    · rw [h.nItems]
      split at e
      · next hb =>
        rw [if_pos hb]
        exact h.makeBucket hc hb.1 e
      · next hb =>
        rw [if_neg hb]
        simp only [bind, Except.bind] at e ⊢
        split at e
        · cases e
        · next v hv =>
          obtain ⟨m, l, rt, s1⟩ := v
          obtain ⟨t1, e1, l1⟩ := h.chooseSplit hv
          rw [e1]
          dsimp only at e ⊢
          rw [l1.nItems]
          split
          · next hlr =>
            rw [if_pos hlr] at e
            split at e
            · cases e
            · next v1 hv1 =>
              obtain ⟨t2, e2, l2⟩ := ih l1 hv1
              rw [e2]
              dsimp only
              split at e
              · cases e
              · next v2 hv2 =>
                obtain ⟨t3, e3, l3⟩ := ih l2 hv2
                rw [e3]
                exact l3.placeSplit hc e
          · next hlr =>
            rw [if_neg hlr] at e
            split at e
            · cases e
            · next v1 hv1 =>
              obtain ⟨t2, e2, l2⟩ := ih l1 hv1
              rw [e2]
              dsimp only
              split at e
              · cases e
              · next v2 hv2 =>
                obtain ⟨t3, e3, l3⟩ := ih l2 hv2
                rw [e3]
                exact l3.placeSplit hc e

theorem threadLoop (hc : c.WF) {rf tf : Nat} {trees : Int} {lf : Nat} : ∀ {s t s' : Idx c} {done rs : List Nat}, s.Le t →
    s.threadLoop rf tf trees lf done = .ok (rs, s') → ∃ t', t.threadLoop rf tf trees lf done = .ok (rs, t') ∧ s'.Le t' := by
  induction lf with
  | zero => intro s t s' done rs _ e; cases e
  | succ lf ih =>
    intro s t s' done rs h e
    unfold Idx.threadLoop at e ⊢
    rw [h.nItems, h.nNodes]
    by_cases h1 : (if trees = -1 then s.nNodes ≥ c.L.wrap (2 * s.nItems) else (done.length : Int) ≥ trees)
    · rw [if_pos h1] at e ⊢
      cases e
      exact ⟨t, rfl, h⟩
    · rw [if_neg h1] at e ⊢
      simp only [bind, Except.bind] at e ⊢
      split at e
      · cases e
      · next ids hids =>
        rw [liveItems_le h.bmem hids]
        dsimp only
        split at e
        · cases e
        · next v hv =>
          obtain ⟨root, s1⟩ := v
          obtain ⟨t1, e1, l1⟩ := h.makeTree hc hv
          rw [e1]
          exact ih l1 e

theorem copyRoots (hc : c.WF) (rs : List Nat) : ∀ {s t s' : Idx c} {dst : Nat}, s.Le t →
    s.copyRoots rs dst = .ok s' → ∃ t', t.copyRoots rs dst = .ok t' ∧ s'.Le t' := by
  induction rs with
  | nil => intro s t s' dst h e; cases e; exact ⟨t, rfl, h⟩
  | cons r rs ih =>
    intro s t s' dst h e
    unfold Idx.copyRoots at e ⊢
    simp only [bind, Except.bind] at e ⊢
    split at e
    · cases e
    · next d hd =>
      rw [h.getNode hd]
      dsimp only
      split at e
      · cases e
      · next a ha =>
        rw [h.getNode ha]
        dsimp only
        have hb := bound hd
        have hp := hc.layout.nodeSize_pos
        refine ih ?_ e
        apply h.write
        intro x hx
        exact Node.copyNode_frame _ _ _ _ _ _ (Or.inr (by have := hc.layout.f_le; omega))

theorem buildFinish (hc : c.WF) (h : s.Le t) {s' : Idx c} (e : s.buildFinish = .ok s') :
    ∃ t', t.buildFinish = .ok t' ∧ s'.Le t' := by
  unfold Idx.buildFinish at e ⊢
  simp only [bind, Except.bind] at e ⊢
  rw [h.nNodes, h.roots]
  have hA := h.allocateSize (c.L.wrap (s.nNodes + s.roots.length))
  rw [hA.nNodes, hA.roots]
  split at e
  · cases e
  · next s1 h1 =>
    obtain ⟨t1, e1, l1⟩ := hA.copyRoots hc _ h1
    rw [e1]
    dsimp only
    have l2 : ({ s1 with nNodes := c.L.wrap (s1.nNodes + s1.roots.length), built := true } : Idx c).Le
        { t1 with nNodes := c.L.wrap (t1.nNodes + t1.roots.length), built := true } :=
      l1.of_fields (by rw [l1.nNodes, l1.roots]; rw [l1.eq]) rfl rfl
    split at e
    · cases e
    · next k hk =>
      cases e
      have hk' := countNNS_le l2.bmem hk
      have e3 := l2.nItems
      have e4 := l2.nNodes
      dsimp only at e3 e4 hk'
      rw [← e3, ← e4] at hk'
      rw [hk']
      refine ⟨_, rfl, l2.of_fields ?_ rfl rfl⟩
      rw [l1.nNodes, l1.roots]
      rw [l1.eq]

theorem buildStart (hc : c.WF) (h : s.Le t) (hs : s.MemOK) (hn : s.nItems ≤ s.nodesSize) {s' : Idx c}
    (e : s.buildStart = .ok s') : ∃ t', t.buildStart = .ok t' ∧ s'.Le t' := by
  unfold Idx.buildStart at e ⊢
  rw [h.loaded, h.built]
  split at e
  · cases e
  · split at e
    · cases e
    · next h1 h2 =>
      rw [if_neg h1, if_neg h2]
      cases e
      refine ⟨_, rfl, ?_⟩
      have hW : (s.write fun b => c.D.preProcess b s.nItems).Le (t.write fun b => c.D.preProcess b s.nItems) := by
        apply h.write
        intro x hx
        apply preProcess_zero hc hs hn
        have := Nat.mul_le_mul_right c.L.nodeSize hn
        have := hs.size
        omega
      rw [h.nItems]
      refine hW.of_fields ?_ rfl rfl
      rw [hW.nItems]
      rw [hW.eq]

theorem build (hc : c.WF) (h : s.Le t) (hs : s.MemOK) (hn : s.nItems ≤ s.nodesSize) {rf tf lf : Nat} {trees : Int}
    {s' : Idx c} (e : s.build rf tf lf trees = .ok s') : ∃ t', t.build rf tf lf trees = .ok t' ∧ s'.Le t' := by
  unfold Idx.build Idx.threadBuild at e ⊢
  simp only [bind, Except.bind] at e ⊢
  split at e
  · cases e
  · next s1 h1 =>
    obtain ⟨t1, e1, l1⟩ := h.buildStart hc hs hn h1
    rw [e1]
    dsimp only
    split at e
    · cases e
    · next v hv =>
      split at hv
      · cases hv
      · next u hu =>
        obtain ⟨rs, s2⟩ := u
        obtain ⟨t2, e2, l2⟩ := l1.threadLoop hc hu
        rw [e2]
        cases hv
        have l3 := l2.withRoots (s2.roots ++ rs)
        dsimp only at e ⊢
        rw [l2.roots]
        exact l3.buildFinish hc e

end Le
end Idx

/-! ### several workers -/

namespace Prog
variable {c : Cfg}

/-- A worker that does not notice larger blocks. -/
def Tame : Prog c → Prop
  | .done => True
  | .fail _ => True
  | .lockN k => k.Tame
  | .unlockN k => k.Tame
  | .rlock k => k.Tame
  | .runlock k => k.Tame
  | .wlock k => k.Tame
  | .wunlock k => k.Tame
  | .lockR k => k.Tame
  | .unlockR k => k.Tame
  | .readN k => ∀ v, (k v).Tame
  | .setN _ k => k.Tame
  | .readSize k => ∀ v, (k v).Tame
  | .grow _ k => k.Tame
  | .read f k => (∀ m m' r x, Block.Le m m' → f m r = .ok x → f m' r = .ok x) ∧ ∀ x, (k x).Tame
  | .write _ g k => (∀ d a x, (x < a ∨ a + c.L.nodeSize ≤ x) → g d a x = d x) ∧ k.Tame
  | .rand _ k => ∀ l rt, (k l rt).Tame
  | .readRoots k => ∀ rs, (k rs).Tame
  | .setRoots _ k => k.Tame

theorem takeNode_tame {k : Nat → Prog c} (h : ∀ i, (k i).Tame) : (takeNode k).Tame := by
  unfold takeNode
  simp only [Tame]
  intro v z
  split
  · simp only [Tame]
    intro _ i _
    exact h i
  · simp only [Tame]
    intro i _
    exact h i

theorem bucket_tame (hc : c.WF) {n : Nat} {ids : List Nat} {isRoot : Bool} {k : Nat → Prog c} (hK : ids.length ≤ c.L.K)
    (h : ∀ i, (k i).Tame) : (bucket n ids isRoot k).Tame := by
  have h3 := hc.layout.three_le
  apply takeNode_tame
  intro i
  simp only [Tame]
  refine ⟨fun d a x hx => Node.setNDesc_frame _ _ _ _ (by omega), ?_⟩
  split
  · simp only [Tame]
    refine ⟨fun d a x hx => Node.setChildren_frame _ _ _ _ ?_, h i⟩
    have h1 : ids.length * c.L.szIX ≤ c.L.K * c.L.szIX := Nat.mul_le_mul_right _ hK
    have := hc.layout.K_fits
    omega
  · simp only [Tame]
    exact h i

theorem place_tame (hc : c.WF) {m : Bytes} {k : Nat → Prog c} (h : ∀ i, (k i).Tame) : (place m k).Tame := by
  have h3 := hc.layout.f_le
  apply takeNode_tame
  intro i
  simp only [Tame]
  exact ⟨fun d a x hx => Node.copyNode_frame _ _ _ _ _ _ (by omega), h i⟩

theorem sides_tame {m : Bytes} (ids : List Nat) : ∀ {k : List Nat → List Nat → Prog c}, (∀ l rt, (k l rt).Tame) →
    (sides m ids k).Tame := by
  induction ids with
  | nil => intro k h; exact h [] []
  | cons j ids ih =>
    intro k h
    unfold sides
    simp only [Tame]
    refine ⟨fun m m' r x hm e => sideOfItem_le hm e, fun sd => ih fun l rt => ?_⟩
    cases sd <;> exact h _ _

theorem attempts_tame {addrs ids : List Nat} (j : Nat) : ∀ {m l rt} {k : Bytes → List Nat → List Nat → Prog c},
    (∀ m l rt, (k m l rt).Tame) → (attempts addrs ids j m l rt k).Tame := by
  induction j with
  | zero => intro m l rt k h; exact h _ _ _
  | succ j ih =>
    intro m l rt k h
    unfold attempts
    simp only [Tame]
    refine ⟨fun m m' r x hm e => by rw [← hm.2]; exact e, fun tmp => sides_tame ids fun l rt => ?_⟩
    split
    · exact h _ _ _
    · exact ih h

theorem choose_tame {ids : List Nat} {k : Bytes → List Nat → List Nat → Prog c} (h : ∀ m l rt, (k m l rt).Tame) :
    (choose ids k).Tame := by
  unfold choose
  simp only [Tame]
  refine ⟨fun m m' r x hm e => bind_le e (fun a ha => mapM_le (fun i _ b hb => getNode_le hm hb) ha) fun a ha => ha,
    fun addrs => attempts_tame 3 fun m l rt => ?_⟩
  simp only [Tame]
  split
  · exact h _ _ _
  · simp only [Tame]
    exact fun l rt => h _ _ _

theorem makeTree_tame (hc : c.WF) {n : Nat} (fuel : Nat) : ∀ {ids : List Nat} {isRoot : Bool} {k : Nat → Prog c},
    (∀ i, (k i).Tame) → (makeTree n fuel ids isRoot k).Tame := by
  induction fuel with
  | zero => intro ids isRoot k _; trivial
  | succ fuel ih =>
    intro ids isRoot k h
    unfold makeTree
    split
    · exact h _
    · split
      · next hb => exact bucket_tame hc hb.1 h
      · apply choose_tame
        intro m l rt
        dsimp only
        split
        · exact ih fun cr => ih fun cl => place_tame hc h
        · exact ih fun cl => ih fun cr => place_tame hc h

theorem scan_tame (is : List Nat) : ∀ {acc : List Nat} {k : List Nat → Prog c}, (∀ ids, (k ids).Tame) →
    (scan is acc k).Tame := by
  induction is with
  | nil => intro acc k h; exact h _
  | cons i is ih =>
    intro acc k h
    unfold scan
    simp only [Tame]
    refine ⟨fun m m' r x hm e => bind_le e (fun a ha => getNode_le hm ha) fun a ha => by rw [← hm.2]; exact ha,
      fun nd => ih h⟩

theorem thread_tame (hc : c.WF) {n : Nat} {trees : Int} (fuel : Nat) : ∀ {rs : List Nat},
    (thread (c := c) n trees fuel rs).Tame := by
  induction fuel with
  | zero => intro rs; trivial
  | succ fuel ih =>
    intro rs
    have hgo : (rlock <| scan (List.range n) [] fun ids => runlock <|
      makeTree n (n + 2) ids true fun root => thread n trees fuel (rs ++ [root]) : Prog c).Tame :=
      scan_tame _ fun ids => makeTree_tame hc _ fun i => ih
    have hstop : (lockR <| readRoots fun old => setRoots (old ++ rs) <| unlockR done : Prog c).Tame :=
      fun _ => trivial
    unfold thread
    dsimp only
    split
    · simp only [Tame]
      intro v
      split
      · exact hstop
      · exact hgo
    · split
      · exact hstop
      · exact hgo

end Prog

namespace Conc
variable {c : Cfg}

/-- The same workers over a larger block. -/
structure Sim (x y : Conf c) : Prop where
  idx : x.idx.Le y.idx
  ths : y.ths = x.ths
  tame : ∀ t ∈ x.ths, t.2.Tame

def NoFail (x : Conf c) : Prop := ∀ t ∈ x.ths, ∀ e, t.2 ≠ .fail e

theorem tstep_sim (hc : c.WF) {o : List Held} {s s' t : Idx c} {h h' : Held} {p p' : Prog c} (hl : s.Le t) (hp : p.Tame)
    (hf : ∀ e, p' ≠ .fail e) (st : TStep o s h p s' h' p') :
    ∃ t', TStep o t h p t' h' p' ∧ s'.Le t' ∧ p'.Tame := by
  cases st with
  | lockN a b => exact ⟨t, .lockN a b, hl, hp⟩
  | unlockN a => exact ⟨t, .unlockN a, hl, hp⟩
  | rlock a b d => exact ⟨t, .rlock a b d, hl, hp⟩
  | runlock a => exact ⟨t, .runlock a, hl, hp⟩
  | announce a b => exact ⟨t, .announce a b, hl, hp⟩
  | wlock a b d => exact ⟨t, .wlock a b d, hl, hp⟩
  | wunlock a => exact ⟨t, .wunlock a, hl, hp⟩
  | lockR a b => exact ⟨t, .lockR a b, hl, hp⟩
  | unlockR a => exact ⟨t, .unlockR a, hl, hp⟩
  | readN => refine ⟨t, ?_, hl, hp _⟩; rw [← hl.nNodes]; exact .readN
  | setN => exact ⟨_, .setN, hl.withNNodes _, hp⟩
  | readSize => refine ⟨t, ?_, hl, hp _⟩; rw [← hl.nodesSize]; exact .readSize
  | growBegin a => exact ⟨t, .growBegin a, hl, hp⟩
  | growEnd a => exact ⟨_, .growEnd a, hl.realloc _ _, hp⟩
  | read r r' e => exact ⟨_, .read r r' (hp.1 _ _ _ _ hl.bmem e), hl.withRng r', hp.2 _⟩
  | readErr r e => exact absurd rfl (hf _)
  | write e =>
    refine ⟨_, .write (hl.getNode e), ?_, hp.2⟩
    apply hl.write
    intro x hx
    apply hp.1
    have := Idx.Le.bound e
    have := hc.layout.nodeSize_pos
    omega
  | writeErr e => exact absurd rfl (hf _)
  | rand r r' a b => exact ⟨_, .rand r r' a b, hl.withRng r', hp _ _⟩
  | spin r r' a b => exact ⟨_, .spin r r' a b, hl.withRng r', hp⟩
  | readRoots => refine ⟨t, ?_, hl, hp _⟩; rw [← hl.roots]; exact .readRoots
  | setRoots => exact ⟨_, .setRoots, hl.withRoots _, hp⟩

theorem step_sim (hc : c.WF) {x x' y : Conf c} (h : Sim x y) (hf : NoFail x') (st : Step x x') :
    ∃ y', Step y y' ∧ Sim x' y' := by
  cases st with
  | @mk s s' hh hh' p p' pre post ts =>
    obtain ⟨t, ths⟩ := y
    have e : ths = pre ++ (hh, p) :: post := h.ths
    subst e
    obtain ⟨t', k1, k2, k3⟩ := tstep_sim hc h.idx (h.tame (hh, p) (by simp)) (hf (hh', p') (by simp)) ts
    refine ⟨_, .mk pre post k1, k2, rfl, ?_⟩
    intro u hu
    rcases List.mem_append.1 hu with hu | hu
    · exact h.tame u (by simp [hu])
    · rcases List.mem_cons.1 hu with hu | hu
      · subst hu; exact k3
      · exact h.tame u (by simp [hu])

theorem noFail_back {x y : Conf c} (st : Step x y) (h : NoFail y) : NoFail x := by
  cases st with
  | @mk s s' hh hh' p p' pre post ts =>
    intro u hu e he
    rcases List.mem_append.1 hu with hu | hu
    · exact h u (by simp [hu]) e he
    · rcases List.mem_cons.1 hu with hu | hu
      · subst hu
        dsimp only at he
        subst he
        cases ts
      · exact h u (by simp [hu]) e he

theorem steps_sim (hc : c.WF) {x x' y : Conf c} (h : Sim x y) (st : Steps x x') (hf : NoFail x') :
    ∃ y', Steps y y' ∧ Sim x' y' := by
  induction st with
  | refl => exact ⟨y, .refl y, h⟩
  | tail _ st ih =>
    obtain ⟨y1, h1, h2⟩ := ih (noFail_back st hf)
    obtain ⟨y2, h3, h4⟩ := step_sim hc h2 hf st
    exact ⟨y2, .tail h1 h3, h4⟩

end Conc

namespace Idx
variable {c : Cfg}

theorem Le.buildsMulti (hc : c.WF) {s t : Idx c} (h : s.Le t) (hs : s.MemOK) (hn : s.nItems ≤ s.nodesSize) {trees : Int}
    {W : Nat} {s' : Idx c} (e : s.BuildsMulti trees W s') : ∃ t', t.BuildsMulti trees W t' ∧ s'.Le t' := by
  obtain ⟨s1, x, e1, e2, e3, e4⟩ := e
  obtain ⟨t1, f1, l1⟩ := h.buildStart hc hs hn e1
  have hsim : Conc.Sim (startWorkers s1 trees W) (startWorkers t1 trees W) := by
    refine ⟨l1, ?_, ?_⟩
    · unfold startWorkers
      rw [l1.nItems]
    · intro u hu
      unfold startWorkers at hu
      obtain ⟨w, _, rfl⟩ := List.mem_map.1 hu
      exact Prog.thread_tame hc _
  obtain ⟨y, g1, g2⟩ := Conc.steps_sim hc hsim e2 (fun u hu er he => by rw [e3 u hu] at he; cases he)
  obtain ⟨t', k1, k2⟩ := g2.idx.buildFinish hc e4
  refine ⟨t', ⟨t1, y, f1, g1, ?_, k1⟩, k2⟩
  intro u hu
  rw [g2.ths] at hu
  exact e3 u hu

theorem Le.builds (hc : c.WF) {s t : Idx c} (h : s.Le t) (hs : s.MemOK) (hn : s.nItems ≤ s.nodesSize) {numCPU : Nat}
    {trees workers : Int} {pol : BuildPolicy} {s' : Idx c} (e : s.Builds numCPU trees workers pol s') :
    ∃ t', t.Builds numCPU trees workers pol t' ∧ s'.Le t' := by
  cases e with
  | single rf tf lf e =>
    obtain ⟨t', h1, h2⟩ := h.build hc hs hn e
    exact ⟨t', .single rf tf lf h1, h2⟩
  | multi hW e =>
    obtain ⟨t', h1, h2⟩ := h.buildsMulti hc hs hn e
    exact ⟨t', .multi hW h1, h2⟩

/-- A new index with a hint and one without. -/
theorem Le.new (c : Cfg) (r : c.R.σ) (hint : Nat) : (Idx.new c r 0).Le (Idx.new c r hint) := by
  have e : (Idx.new c r hint).alloc.data = zeros := by
    unfold Idx.new
    dsimp only
    split
    · apply Bytes.ext'
      intro x
      unfold Alloc.reallocate Alloc.empty
      rw [if_neg (by simp)]
      rfl
    · rfl
  refine ⟨?_, Nat.zero_le _, ?_, fun _ _ => rfl, fun _ => rfl⟩
  · show _ = ({ Idx.new c r 0 with alloc := ⟨(Idx.new c r hint).alloc.present, (Idx.new c r hint).alloc.size, zeros⟩ } : Idx c)
    rw [← e]
    rfl
  · intro h; cases h

end Idx
end Annoy
