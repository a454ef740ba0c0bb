import Verif.Spec.Search
import Verif.Proof.Heap
import Verif.Proof.Tree
import Verif.Proof.Items
/-!
The search loop.
-/
namespace Annoy

/-- The leaves of a tree. -/
def Tree.leaves : Tree → List Tree
  | .split _ l r => l.leaves ++ r.leaves
  | t => [t]

theorem Tree.leaves_items (t : Tree) : t.leaves.flatMap Tree.items = t.items := by
  induction t with
  | item i => simp [leaves, items]
  | hole i => simp [leaves, items]
  | bucket i ids => simp [leaves, items]
  | split i l r ihl ihr => simp [leaves, items, ihl, ihr]

namespace Search
variable {c : Cfg}

/-- The search loop without the buffer: the candidates in the order they are found. -/
def collect (mem : Block) (nItems : Nat) (query : List c.N.V) (budget : Int) :
    Nat → List (c.N.V × Nat) → List Nat → Except Err (List Nat)
  | 0, _, _ => .error .diverge
  | fuel + 1, q, acc =>
    if (acc.length : Int) < budget then
      match Heap.pop (pairLess c.N) q with
      | none => .ok acc
      | some ((d, i), q) => do
        let a ← getNode c.L mem i
        let nd := Node.nDesc c.L mem.get a
        if nd = 1 ∧ i < nItems then collect mem nItems query budget fuel q (acc ++ [i])
        else if nd ≤ c.L.K then
          collect mem nItems query budget fuel q (acc ++ Node.getChildren c.L mem.get a)
        else do
          let margin ← c.D.margin mem.get a query
          let q := Heap.push (pairLess c.N) q (c.D.pqDistance d margin .right, Node.child c.L mem.get a 1)
          let q := Heap.push (pairLess c.N) q (c.D.pqDistance d margin .left, Node.child c.L mem.get a 0)
          collect mem nItems query budget fuel q acc
    else .ok acc

section
variable {mem : Block} {n : Nat} {query : List c.N.V} {budget : Int}

theorem collect_prefix (fuel : Nat) : ∀ {q acc col}, collect mem n query budget fuel q acc = .ok col → acc <+: col := by
  induction fuel with
  | zero => intro q acc col h; cases h
  | succ fuel ih =>
    intro q acc col h
    unfold collect at h
    split at h
    · split at h
      · cases h; exact List.prefix_refl _
      · simp only [bind, Except.bind] at h
        split at h
        · cases h
        · split at h
          · exact (List.prefix_append _ _).trans (ih h)
          · split at h
            · exact (List.prefix_append _ _).trans (ih h)
            · split at h
              · cases h
              · exact ih h
    · cases h; exact List.prefix_refl _

theorem collect_mono (fuel : Nat) : ∀ {q acc col}, collect mem n query budget fuel q acc = .ok col →
    ∀ {fuel'}, fuel ≤ fuel' → collect mem n query budget fuel' q acc = .ok col := by
  induction fuel with
  | zero => intro q acc col h; cases h
  | succ fuel ih =>
    intro q acc col h fuel' hf
    obtain _ | fuel' := fuel'
    · omega
    have hf : fuel ≤ fuel' := by omega
    unfold collect at h ⊢
    split at h
    · next h1 =>
      rw [if_pos h1]
      split at h
      · next h2 => exact h
      · next d i q' h2 =>
        simp only [bind, Except.bind] at h ⊢
        split at h
        · cases h
        · next a ha =>
          split at h
          · next h3 => rw [if_pos h3]; exact ih h hf
          · next h3 =>
            rw [if_neg h3]
            split at h
            · next h4 => rw [if_pos h4]; exact ih h hf
            · next h4 =>
              rw [if_neg h4]
              split at h
              · cases h
              · next x hx => exact ih h hf
    · next h1 => rw [if_neg h1]; exact h

theorem collect_det {fuel fuel' : Nat} {q acc col col'} (h : collect mem n query budget fuel q acc = .ok col)
    (h' : collect mem n query budget fuel' q acc = .ok col') : col = col' := by
  have h1 := collect_mono fuel h (le_max_left fuel fuel')
  have h2 := collect_mono fuel' h' (le_max_right fuel fuel')
  rw [h1] at h2
  exact Except.ok.inj h2

/-- With a larger budget the search finds the same candidates first, and then possibly more. -/
theorem collect_budget {budget' : Int} (hb : budget ≤ budget') (fuel : Nat) : ∀ {q acc col col'},
    collect mem n query budget fuel q acc = .ok col → collect mem n query budget' fuel q acc = .ok col' →
    col <+: col' := by
  induction fuel with
  | zero => intro q acc col col' h; cases h
  | succ fuel ih =>
    intro q acc col col' h h'
    by_cases h1 : (acc.length : Int) < budget
    · unfold collect at h h'
      rw [if_pos h1] at h
      rw [if_pos (by omega)] at h'
      split at h
      · next h2 => rw [h2] at h'; cases h; cases h'; exact List.prefix_refl _
      · next d i q' h2 =>
        rw [h2] at h'
        simp only [bind, Except.bind] at h h'
        split at h
        · cases h
        · next a ha =>
          rw [ha] at h'
          dsimp only at h'
          split at h
          · next h3 => rw [if_pos h3] at h'; exact ih h h'
          · next h3 =>
            rw [if_neg h3] at h'
            split at h
            · next h4 => rw [if_pos h4] at h'; exact ih h h'
            · next h4 =>
              rw [if_neg h4] at h'
              split at h
              · cases h
              · next x hx =>
                rw [hx] at h'
                exact ih h h'
    · have : col = acc := by
        unfold collect at h
        rw [if_neg h1] at h
        cases h; rfl
      subst this
      exact collect_prefix _ h'

theorem copyAt_fits (acc tail ch : List Nat) (h : ch.length ≤ tail.length) :
    copyAt (acc ++ tail) acc.length ch = (acc ++ ch) ++ tail.drop ch.length := by
  unfold copyAt
  rw [List.take_left' rfl, List.take_of_length_le (by simp; omega), List.drop_append,
    List.drop_of_length_le (l := acc) (by omega), List.nil_append]
  congr 2
  omega

theorem copyAt_length (buf src : List Nat) (cnt : Nat) (h : cnt ≤ buf.length) :
    (copyAt buf cnt src).length = buf.length := by
  unfold copyAt
  simp only [List.length_append, List.length_take, List.length_drop]
  omega

/-- With enough room the loop puts the candidates into the front of the buffer. -/
theorem loop_of_collect (fuel : Nat) : ∀ {q acc col} (tail : List Nat),
    collect mem n query budget fuel q acc = .ok col → col.length ≤ acc.length + tail.length →
    loop c mem n query budget fuel q (acc ++ tail) acc.length
      = .ok (col ++ tail.drop (col.length - acc.length), col.length) := by
  induction fuel with
  | zero => intro q acc col tail h; cases h
  | succ fuel ih =>
    intro q acc col tail h hl
    unfold collect at h
    unfold loop
    split at h
    · next h1 =>
      rw [if_pos h1]
      split at h
      · next h2 => rw [h2]; cases h; simp
      · next d i q' h2 =>
        rw [h2]
        simp only [bind, Except.bind] at h ⊢
        split at h
        · cases h
        · next a ha =>
          split at h
          · next h3 =>
            rw [if_pos h3]
            have hp := (collect_prefix fuel h).length_le
            rw [List.length_append, List.length_singleton] at hp
            obtain _ | ⟨x, tail⟩ := tail
            · simp at hl; omega
            rw [if_pos (by simp)]
            have e1 : (acc ++ x :: tail).set acc.length i = (acc ++ [i]) ++ tail := by simp
            rw [e1]
            have := ih tail h (by simp at hl ⊢; omega)
            rw [List.length_append, List.length_singleton] at this
            rw [this]
            have : col.length - acc.length = (col.length - (acc.length + 1)) + 1 := by omega
            rw [this, List.drop_succ_cons]
          · next h3 =>
            rw [if_neg h3]
            split at h
            · next h4 =>
              rw [if_pos h4, if_pos (by simp)]
              have hp := (collect_prefix fuel h).length_le
              rw [List.length_append] at hp
              rw [copyAt_fits _ _ _ (by omega)]
              have := ih (tail.drop (Node.getChildren c.L mem.get a).length) h (by
                simp only [List.length_append, List.length_drop]; omega)
              rw [List.length_append, Node.getChildren_length] at this
              rw [Node.getChildren_length, this, List.drop_drop]
              rw [Node.getChildren_length] at hp
              congr 4
              omega
            · next h4 =>
              rw [if_neg h4]
              split at h
              · cases h
              · next x hx => exact ih tail h hl
    · next h1 => rw [if_neg h1]; cases h; simp

theorem loop_bounds (fuel : Nat) : ∀ {q buf cnt buf' cnt'},
    loop c mem n query budget fuel q buf cnt = .ok (buf', cnt') → cnt ≤ cnt' ∧ buf'.length = buf.length := by
  induction fuel with
  | zero => intro q buf cnt buf' cnt' h; cases h
  | succ fuel ih =>
    intro q buf cnt buf' cnt' h
    unfold loop at h
    split at h
    · split at h
      · cases h; exact ⟨le_rfl, rfl⟩
      · simp only [bind, Except.bind] at h
        split at h
        · cases h
        · split at h
          · split at h
            · obtain ⟨h1, h2⟩ := ih h
              rw [List.length_set] at h2
              exact ⟨by omega, h2⟩
            · cases h
          · split at h
            · split at h
              · next hc =>
                obtain ⟨h1, h2⟩ := ih h
                rw [copyAt_length _ _ _ hc] at h2
                exact ⟨by omega, h2⟩
              · cases h
            · split at h
              · cases h
              · exact ih h
    · cases h; exact ⟨le_rfl, rfl⟩

/-- What the loop leaves in the front of the buffer are the candidates. -/
theorem collect_of_loop (fuel : Nat) : ∀ {q acc} {tail buf' : List Nat} {cnt' : Nat},
    loop c mem n query budget fuel q (acc ++ tail) acc.length = .ok (buf', cnt') → cnt' ≤ acc.length + tail.length →
    ∃ col, collect mem n query budget fuel q acc = .ok col ∧ cnt' = col.length := by
  induction fuel with
  | zero => intro q acc tail buf' cnt' h; cases h
  | succ fuel ih =>
    intro q acc tail buf' cnt' h hl
    unfold loop at h
    unfold collect
    split at h
    · next h1 =>
      rw [if_pos h1]
      split at h
      · next h2 => rw [h2]; cases h; exact ⟨_, rfl, rfl⟩
      · next d i q' h2 =>
        rw [h2]
        simp only [bind, Except.bind] at h ⊢
        split at h
        · cases h
        · next a ha =>
          split at h
          · next h3 =>
            rw [if_pos h3]
            split at h
            · next h4 =>
              obtain _ | ⟨x, tail⟩ := tail
              · simp at h4
              have e1 : (acc ++ x :: tail).set acc.length i = (acc ++ [i]) ++ tail := by simp
              have e2 : acc.length + 1 = (acc ++ [i]).length := by simp
              rw [e1, e2] at h
              exact ih h (by simp at hl ⊢; omega)
            · cases h
          · next h3 =>
            rw [if_neg h3]
            split at h
            · next h4 =>
              rw [if_pos h4]
              split at h
              · obtain ⟨b1, b2⟩ := loop_bounds fuel h
                rw [copyAt_fits _ _ _ (by rw [Node.getChildren_length]; omega)] at h
                have e2 : acc.length + Node.nDesc c.L mem.get a =
                    (acc ++ Node.getChildren c.L mem.get a).length := by
                  rw [List.length_append, Node.getChildren_length]
                rw [e2] at h
                refine ih h ?_
                rw [List.length_append, List.length_drop, Node.getChildren_length]
                omega
              · cases h
            · next h4 =>
              rw [if_neg h4]
              split at h
              · cases h
              · next x hx => exact ih h hl
    · next h1 => rw [if_neg h1]; cases h; exact ⟨_, rfl, rfl⟩

/-- The loop of a query with a context: the candidates, if there is room for them. -/
theorem loop_iff (fuel : Nat) (q : List (c.N.V × Nat)) (buf buf' : List Nat) (cnt : Nat) :
    (loop c mem n query budget fuel q buf 0 = .ok (buf', cnt) ∧ cnt ≤ buf'.length) ↔
    ∃ col, collect mem n query budget fuel q [] = .ok col ∧ col.length ≤ buf.length ∧
      buf' = col ++ buf.drop col.length ∧ cnt = col.length := by
  constructor
  · intro ⟨h, hl⟩
    obtain ⟨b1, b2⟩ := loop_bounds fuel h
    obtain ⟨col, h1, h2⟩ := collect_of_loop (acc := []) fuel h (by simp; omega)
    subst h2
    have h3 := loop_of_collect (acc := []) fuel buf h1 (by simp; omega)
    have h4 : loop c mem n query budget fuel q buf 0 = _ := h3
    rw [h] at h4
    cases h4
    exact ⟨col, h1, by omega, by simp, rfl⟩
  · rintro ⟨col, h1, h2, rfl, rfl⟩
    have h3 := loop_of_collect (acc := []) fuel buf h1 (by simp; omega)
    exact ⟨by simpa using h3, by simp⟩

end

/-! ### the queue as a list of trees -/

theorem perm_map_cons {α β : Type} {f : α → β} {x : β} {l : List β} {as : List α} (h : (x :: l).Perm (as.map f)) :
    ∃ a as', as.Perm (a :: as') ∧ f a = x ∧ l.Perm (as'.map f) := by
  obtain ⟨a, ha, e⟩ := List.mem_map.1 (h.subset List.mem_cons_self)
  obtain ⟨s, t, rfl⟩ := List.append_of_mem ha
  refine ⟨a, s ++ t, List.perm_middle, e, ?_⟩
  have : ((s ++ a :: t).map f).Perm (x :: (s ++ t).map f) := by
    rw [← e]
    exact (List.perm_middle (l₁ := s) (l₂ := t) (a := a)).map f
  exact (h.trans this).cons_inv

/-- The node of a tree in the queue. -/
def key (p : c.N.V × Tree) : c.N.V × Nat := (p.1, p.2.root)

/-- Number of pops until the queue is empty. -/
def work (qt : List (c.N.V × Tree)) : Nat := (qt.map fun p => p.2.size).sum

theorem work_perm {a b : List (c.N.V × Tree)} (h : a.Perm b) : work a = work b := by
  unfold work
  exact (h.map _).sum_nat

theorem work_cons (p : c.N.V × Tree) (a : List (c.N.V × Tree)) : work (p :: a) = p.2.size + work a := by
  simp [work]

/-- A tree the search can walk through. -/
structure Walkable (c : Cfg) (mem : Block) (n : Nat) (t : Tree) : Prop where
  holds : Holds c.L mem.get n t
  nodes : ∀ i ∈ t.nodes, getNode c.L mem i = .ok (i * c.L.nodeSize)

theorem Walkable.root {mem : Block} {n : Nat} {t : Tree} (h : Walkable c mem n t) :
    getNode c.L mem t.root = .ok (t.root * c.L.nodeSize) :=
  h.nodes _ (by cases t <;> simp [Tree.nodes, Tree.root])

/-- The search loop on trees.  It ends after at most as many steps as there are nodes in the trees.  What it collects are the
items of some leaves; the other leaves are left in the queue, and there are none if the budget was not
exhausted. -/
theorem collect_spec (hc : c.WF) {mem : Block} {n : Nat} {query : List c.N.V} {budget : Int}
    (hm : ∀ i, ∃ x, c.D.margin mem.get (i * c.L.nodeSize) query = .ok x) (fuel : Nat) :
    ∀ {q : List (c.N.V × Nat)} {qt : List (c.N.V × Tree)} {acc : List Nat}, q.Perm (qt.map key) →
    (∀ p ∈ qt, Walkable c mem n p.2) → work qt < fuel →
    ∃ done rest : List Tree, collect mem n query budget fuel q acc = .ok (acc ++ done.flatMap Tree.items) ∧
      (done ++ rest.flatMap Tree.leaves).Perm (qt.flatMap fun p => p.2.leaves) ∧
      (rest = [] ∨ budget ≤ (acc.length + (done.flatMap Tree.items).length : Nat)) := by
  induction fuel with
  | zero => intro q qt acc _ _ h; omega
  | succ fuel ih =>
    intro q qt acc hq hw hf
    unfold collect
    by_cases h1 : (acc.length : Int) < budget
    · rw [if_pos h1]
      cases hp : Heap.pop (pairLess c.N) q with
      | none =>
        have := (Heap.pop_none _ _).1 hp
        subst this
        have : qt = [] := List.map_eq_nil_iff.1 hq.symm.eq_nil
        subst this
        exact ⟨[], [], by simp, by simp, Or.inl rfl⟩
      | some v =>
        obtain ⟨⟨d, i⟩, q'⟩ := v
        obtain ⟨⟨d', t⟩, qt', k1, k2, k3⟩ := perm_map_cons ((Heap.pop_perm _ _ _ _ hp).trans hq)
        unfold key at k2
        simp only [Prod.mk.injEq] at k2
        obtain ⟨rfl, rfl⟩ := k2
        have hwt : Walkable c mem n t := hw (d', t) (k1.symm.subset (by simp))
        have hw' : ∀ p ∈ qt', Walkable c mem n p.2 := fun p hp => hw p (k1.symm.subset (by simp [hp]))
        rw [work_perm k1, work_cons] at hf
        dsimp only at hf
        have hleaf : (qt.flatMap fun p => p.2.leaves).Perm (t.leaves ++ qt'.flatMap fun p => p.2.leaves) := by
          have := k1.flatMap_right fun p => p.2.leaves
          simpa using this
        simp only [hwt.root, bind, Except.bind]
        have fin : ∀ ids : List Nat, ∀ t' : Tree, t.leaves = [t'] → t'.items = ids →
            ∃ done rest : List Tree, collect mem n query budget fuel q' (acc ++ ids)
              = .ok (acc ++ done.flatMap Tree.items) ∧
            (done ++ rest.flatMap Tree.leaves).Perm (qt.flatMap fun p => p.2.leaves) ∧
            (rest = [] ∨ budget ≤ (acc.length + (done.flatMap Tree.items).length : Nat)) := by
          intro ids t' e1 e2
          have hs : 1 ≤ t.size := by cases t <;> simp [Tree.size]
          obtain ⟨done, rest, r1, r2, r3⟩ := ih (acc := acc ++ ids) k3 hw' (by omega)
          refine ⟨t' :: done, rest, ?_, ?_, ?_⟩
          · rw [r1]; simp [e2]
          · refine List.Perm.trans ?_ hleaf.symm
            rw [e1]
            exact List.Perm.cons _ r2
          · rcases r3 with r3 | r3
            · exact Or.inl r3
            · right
              simp only [List.length_append] at r3
              simp only [List.flatMap_cons, List.length_append, e2]
              omega
        have hh := hwt.holds
        generalize hi : t.root = i0
        cases t with
        | item i =>
          change i = i0 at hi
          subst hi
          have hnd : Node.nDesc c.L mem.get (i * c.L.nodeSize) = 1 := hh.2
          rw [if_pos ⟨hnd, hh.1⟩]
          exact fin [i] _ rfl rfl
        | hole i =>
          have hh : ndAt c.L mem.get i = 0 := hh
          have e0 : Node.nDesc c.L mem.get (i * c.L.nodeSize) = 0 := hh
          change i = i0 at hi
          subst hi
          rw [if_neg (by omega), if_pos (by omega)]
          have : Node.getChildren c.L mem.get (i * c.L.nodeSize) = [] := by
            apply List.eq_nil_of_length_eq_zero
            rw [Node.getChildren_length]; exact hh
          rw [this]
          exact fin [] _ rfl rfl
        | bucket i ids =>
          obtain ⟨g1, g2, g3⟩ := hh
          change i = i0 at hi
          subst hi
          have g2' : Node.nDesc c.L mem.get (i * c.L.nodeSize) ≤ c.L.K := g2
          have g3' : Node.getChildren c.L mem.get (i * c.L.nodeSize) = ids := g3
          rw [if_neg (fun q => g1 ⟨q.2, q.1⟩), if_pos g2', g3']
          exact fin ids _ rfl rfl
        | split i l r =>
          obtain ⟨g1, g2, g3, g4, g5⟩ := hh
          have hK := hc.layout.K_ge
          change i = i0 at hi
          subst hi
          have g1' : c.L.K < Node.nDesc c.L mem.get (i * c.L.nodeSize) := g1
          rw [if_neg (by omega), if_neg (by omega)]
          obtain ⟨x, hx⟩ := hm i
          rw [hx]
          dsimp only
          have hn := hwt.nodes
          simp only [Tree.nodes, List.mem_cons, List.mem_append] at hn
          obtain ⟨done, rest, r1, r2, r3⟩ := ih (acc := acc)
            (q := Heap.push (pairLess c.N)
              (Heap.push (pairLess c.N) q' (c.D.pqDistance d' x .right, Node.child c.L mem.get (i * c.L.nodeSize) 1))
              (c.D.pqDistance d' x .left, Node.child c.L mem.get (i * c.L.nodeSize) 0))
            (qt := (c.D.pqDistance d' x .left, l) :: (c.D.pqDistance d' x .right, r) :: qt') (by
              refine (Heap.push_perm _ _ _).trans ?_
              have e1 : key (c.D.pqDistance d' x .left, l)
                  = (c.D.pqDistance d' x .left, Node.child c.L mem.get (i * c.L.nodeSize) 0) :=
                congrArg _ g2.symm
              have e2 : key (c.D.pqDistance d' x .right, r)
                  = (c.D.pqDistance d' x .right, Node.child c.L mem.get (i * c.L.nodeSize) 1) :=
                congrArg _ g3.symm
              rw [List.map_cons, List.map_cons, e1, e2]
              exact List.Perm.cons _ ((Heap.push_perm _ _ _).trans (List.Perm.cons _ k3))) (by
              intro p hp
              rcases List.mem_cons.1 hp with rfl | hp
              · exact ⟨g4, fun i hi => hn i (Or.inr (Or.inl hi))⟩
              · rcases List.mem_cons.1 hp with rfl | hp
                · exact ⟨g5, fun i hi => hn i (Or.inr (Or.inr hi))⟩
                · exact hw' p hp) (by
              rw [work_cons, work_cons]
              simp only [Tree.size] at hf
              dsimp only
              omega)
          refine ⟨done, rest, r1, r2.trans ?_, r3⟩
          refine List.Perm.trans ?_ hleaf.symm
          simp [Tree.leaves]
    · rw [if_neg h1]
      refine ⟨[], qt.map Prod.snd, by simp, ?_, Or.inr (by simp; omega)⟩
      rw [List.flatMap_map]
      simp

theorem initQueue_perm (roots : List Nat) :
    (initQueue c roots).Perm (roots.map fun r => (c.D.pqInitialValue, r)) := by
  unfold initQueue
  have : ∀ q : List (c.N.V × Nat), (roots.foldl (fun q r => Heap.push (pairLess c.N) q (c.D.pqInitialValue, r)) q).Perm
      (roots.map (fun r => (c.D.pqInitialValue, r)) ++ q) := by
    induction roots with
    | nil => intro q; simp
    | cons r roots ih =>
      intro q
      rw [List.foldl_cons]
      refine (ih _).trans ?_
      refine ((Heap.push_perm (pairLess c.N) q _).append_left _).trans ?_
      rw [List.map_cons, List.cons_append]
      exact List.perm_middle
  simpa using this []

/-! ### distances and sorting -/

/-- The distance loop on an ascending list: the items among the numbers, each once, with its distance. -/
theorem distances_spec {mem : Block} {vn : Bytes} (l : List Nat) : ∀ (last : Option Nat), l.Pairwise (· ≤ ·) →
    (∀ j ∈ l, getNode c.L mem j = .ok (j * c.L.nodeSize)) → (∀ x, last = some x → ∀ j ∈ l, x ≤ j) →
    ∃ r, distances c mem vn last l = .ok r ∧ (r.map Prod.snd).Pairwise (· < ·) ∧
      (∀ j, j ∈ r.map Prod.snd ↔ j ∈ l ∧ ndAt c.L mem.get j = 1 ∧ last ≠ some j) ∧
      ∀ p ∈ r, p.1 = c.D.distance vn 0 mem.get (p.2 * c.L.nodeSize) := by
  induction l with
  | nil => intro last _ _ _; exact ⟨[], rfl, by simp, by simp, by simp⟩
  | cons j l ih =>
    intro last hs hg hl
    rw [List.pairwise_cons] at hs
    unfold distances
    by_cases h1 : last = some j
    · rw [if_pos h1]
      obtain ⟨r, r1, r2, r3, r4⟩ := ih last hs.2 (fun i hi => hg i (by simp [hi])) (fun x hx i hi => hl x hx i (by simp [hi]))
      refine ⟨r, r1, r2, fun i => ?_, r4⟩
      rw [r3]
      constructor
      · rintro ⟨a, b⟩; exact ⟨by simp [a], b⟩
      · rintro ⟨a, b, d⟩
        rcases List.mem_cons.1 a with rfl | a
        · exact absurd h1 d
        · exact ⟨a, b, d⟩
    · rw [if_neg h1]
      obtain ⟨r, r1, r2, r3, r4⟩ := ih (some j) hs.2 (fun i hi => hg i (by simp [hi]))
        (fun x hx i hi => by cases hx; exact hs.1 i hi)
      simp only [hg j (by simp), r1, bind, Except.bind]
      have hlast : ∀ i ∈ l, i ≠ j → last ≠ some i := by
        intro i hi hne e
        have a1 := hl i e j (by simp)
        have a2 := hs.1 i hi
        omega
      by_cases hnd : Node.nDesc c.L mem.get (j * c.L.nodeSize) = 1
      · rw [if_pos hnd]
        refine ⟨_, rfl, ?_, fun i => ?_, ?_⟩
        · rw [List.map_cons, List.pairwise_cons]
          refine ⟨fun i hi => ?_, r2⟩
          obtain ⟨b1, b2, b3⟩ := (r3 i).1 hi
          have := hs.1 i b1
          have : j ≠ i := fun e => b3 (by rw [e])
          show j < i
          omega
        · rw [List.map_cons, List.mem_cons, r3]
          constructor
          · rintro (rfl | ⟨b1, b2, b3⟩)
            · exact ⟨by simp, hnd, h1⟩
            · exact ⟨by simp [b1], b2, hlast i b1 fun e => b3 (by rw [e])⟩
          · rintro ⟨b1, b2, b3⟩
            by_cases e : i = j
            · exact Or.inl e
            · rcases List.mem_cons.1 b1 with b1 | b1
              · exact Or.inl b1
              · exact Or.inr ⟨b1, b2, fun h => e (Option.some.inj h).symm⟩
        · intro p hp
          rcases List.mem_cons.1 hp with rfl | hp
          · rfl
          · exact r4 p hp
      · rw [if_neg hnd]
        refine ⟨_, rfl, r2, fun i => ?_, r4⟩
        rw [r3]
        constructor
        · rintro ⟨b1, b2, b3⟩
          exact ⟨by simp [b1], b2, hlast i b1 fun e => b3 (by rw [e])⟩
        · rintro ⟨b1, b2, b3⟩
          have e : i ≠ j := fun e => hnd (by rw [← e]; exact b2)
          rcases List.mem_cons.1 b1 with b1 | b1
          · exact absurd b1 e
          · exact ⟨b1, b2, fun h => e (Option.some.inj h).symm⟩

end Search
end Annoy
