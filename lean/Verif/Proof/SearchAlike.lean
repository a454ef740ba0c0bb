import Verif.Proof.Search
import Verif.Proof.IeeeCanon
/-!
# Searches whose margins are alike

A heap only compares.  Two searches whose margins cannot be told apart by comparisons visit the same nodes.
-/
namespace Annoy

namespace Heap
open Srt
variable {α : Type} [Inhabited α] {less : α → α → Bool} {g : α → α}

theorem get_map (h0 : g default = default) (h : List α) (i : Nat) : get (h.map g) i = g (get h i) := by
  unfold Srt.get
  rw [List.getD_eq_getElem?_getD, List.getD_eq_getElem?_getD, List.getElem?_map]
  cases h[i]? with
  | none => exact h0.symm
  | some x => rfl

theorem swap_map (h0 : g default = default) (h : List α) (i j : Nat) : swap (h.map g) i j = (swap h i j).map g := by
  unfold swap
  rw [get_map h0, get_map h0, List.map_set, List.map_set]

variable (h0 : g default = default) (hl : ∀ a b, less (g a) (g b) = less a b)
include h0 hl

theorem up_map (fuel : Nat) : ∀ (h : List α) (j : Nat), up less fuel (h.map g) j = (up less fuel h j).map g := by
  induction fuel with
  | zero => intro h j; rfl
  | succ k ih =>
    intro h j
    unfold up
    simp only [get_map h0, hl]
    split
    · rfl
    · rw [swap_map h0, ih]

theorem down_map (n fuel : Nat) : ∀ (h : List α) (i : Nat), down less n fuel (h.map g) i = (down less n fuel h i).map g := by
  induction fuel with
  | zero => intro h j; rfl
  | succ k ih =>
    intro h i
    unfold down
    simp only [get_map h0, hl]
    split
    · rfl
    · generalize (if 2 * i + 1 + 1 < n ∧ less (Srt.get h (2 * i + 1 + 1)) (Srt.get h (2 * i + 1)) = true then 2 * i + 1 + 1
        else 2 * i + 1) = j
      split
      · rfl
      · rw [swap_map h0, ih]

theorem push_map (h : List α) (x : α) : push less (h.map g) (g x) = (push less h x).map g := by
  unfold push
  rw [List.length_map, ← up_map h0 hl, List.map_append]
  rfl

theorem pop_map (h : List α) : pop less (h.map g) = (pop less h).map fun p => (g p.1, p.2.map g) := by
  unfold pop
  rw [List.isEmpty_map]
  split
  · rfl
  · simp only [List.length_map, swap_map h0, down_map h0 hl, get_map h0, Option.map_some, List.map_take]

end Heap

namespace Search
variable {c : Cfg}

/-- Replace a key by its representative. -/
def canKey (K : c.N.Canon) (p : c.N.V × Nat) : c.N.V × Nat := (K.can p.1, p.2)

theorem canKey_default (K : c.N.Canon) : canKey K default = default := by
  show (K.can c.N.zero, 0) = (c.N.zero, 0)
  rw [K.zero]

theorem canKey_less (K : c.N.Canon) (p q : c.N.V × Nat) : pairLess c.N (canKey K p) (canKey K q) = pairLess c.N p q := by
  unfold pairLess canKey
  simp only [K.lt, K.eq]

theorem push_alike (K : c.N.Canon) {Q Q' : List (c.N.V × Nat)} (h : Q.map (canKey K) = Q'.map (canKey K)) {d d' : c.N.V}
    (hd : K.can d = K.can d') (i : Nat) :
    (Heap.push (pairLess c.N) Q (d, i)).map (canKey K) = (Heap.push (pairLess c.N) Q' (d', i)).map (canKey K) := by
  rw [← Heap.push_map (canKey_default K) (canKey_less K), ← Heap.push_map (canKey_default K) (canKey_less K), h]
  unfold canKey
  simp only [hd]

theorem pop_alike (K : c.N.Canon) {Q Q' : List (c.N.V × Nat)} (h : Q.map (canKey K) = Q'.map (canKey K)) :
    (Heap.pop (pairLess c.N) Q = none ∧ Heap.pop (pairLess c.N) Q' = none) ∨
    ∃ d d' i R R', Heap.pop (pairLess c.N) Q = some ((d, i), R) ∧ Heap.pop (pairLess c.N) Q' = some ((d', i), R') ∧
      K.can d = K.can d' ∧ R.map (canKey K) = R'.map (canKey K) := by
  have e1 := Heap.pop_map (canKey_default K) (canKey_less K) Q
  have e2 := Heap.pop_map (canKey_default K) (canKey_less K) Q'
  rw [h, e2] at e1
  cases p1 : Heap.pop (pairLess c.N) Q with
  | none =>
    cases p2 : Heap.pop (pairLess c.N) Q' with
    | none => exact Or.inl ⟨rfl, rfl⟩
    | some x => rw [p1, p2] at e1; simp at e1
  | some x =>
    cases p2 : Heap.pop (pairLess c.N) Q' with
    | none => rw [p1, p2] at e1; simp at e1
    | some y =>
      rw [p1, p2] at e1
      simp only [Option.map_some, Option.some.injEq, Prod.mk.injEq, canKey] at e1
      obtain ⟨⟨a1, a2⟩, a3⟩ := e1
      obtain ⟨⟨d, i⟩, R⟩ := x
      obtain ⟨⟨d', i'⟩, R'⟩ := y
      subst a2
      exact Or.inr ⟨d, d', i', R, R', rfl, rfl, a1.symm, a3.symm⟩

/-- Two queries whose margins at the nodes `good` are alike collect the same candidates. -/
theorem collect_alike (K : c.N.Canon) (hpq : ∀ d m side, c.D.pqDistance d m side = Angular.pqDistance d m side)
    {mem : Block} {n : Nat} {q q' : List c.N.V} {good : Nat → Prop}
    (hgood : ∀ i a, good i → getNode c.L mem i = .ok a → ¬ (Node.nDesc c.L mem.get a = 1 ∧ i < n) → c.L.K < Node.nDesc c.L mem.get a →
      good (Node.child c.L mem.get a 0) ∧ good (Node.child c.L mem.get a 1) ∧
      ∃ x x', c.D.margin mem.get a q = .ok x ∧ c.D.margin mem.get a q' = .ok x' ∧ K.can x = K.can x')
    (budget : Int) (fuel : Nat) : ∀ {Q Q' : List (c.N.V × Nat)} {acc : List Nat}, Q.map (canKey K) = Q'.map (canKey K) →
      (∀ p ∈ Q, good p.2) → collect mem n q budget fuel Q acc = collect mem n q' budget fuel Q' acc := by
  induction fuel with
  | zero => intro Q Q' acc _ _; rfl
  | succ fuel ih =>
    intro Q Q' acc h hg
    unfold collect
    by_cases hb : (acc.length : Int) < budget
    · rw [if_pos hb, if_pos hb]
      rcases pop_alike K h with ⟨p1, p2⟩ | ⟨d, d', i, R, R', p1, p2, hd, hR⟩
      · rw [p1, p2]
      · rw [p1, p2]
        dsimp only
        have hperm := Heap.pop_perm _ _ _ _ p1
        have hi : good i := hg (d, i) (hperm.mem_iff.1 (by simp))
        have hgR : ∀ p ∈ R, good p.2 := fun p hp => hg p (hperm.mem_iff.1 (by simp [hp]))
        cases ha : getNode c.L mem i with
        | error e => rfl
        | ok a =>
          simp only [bind, Except.bind]
          by_cases hit : Node.nDesc c.L mem.get a = 1 ∧ i < n
          · rw [if_pos hit, if_pos hit]
            exact ih hR hgR
          · rw [if_neg hit, if_neg hit]
            by_cases hK : Node.nDesc c.L mem.get a ≤ c.L.K
            · rw [if_pos hK, if_pos hK]
              exact ih hR hgR
            · rw [if_neg hK, if_neg hK]
              obtain ⟨g0, g1, x, x', m1, m2, hx⟩ := hgood i a hi ha hit (by omega)
              rw [m1, m2]
              dsimp only
              have hpd : ∀ side, K.can (c.D.pqDistance d x side) = K.can (c.D.pqDistance d' x' side) := by
                intro side
                rw [hpq, hpq]
                unfold Angular.pqDistance
                split
                · exact K.min hd (K.neg hx)
                · exact K.min hd hx
              refine ih (push_alike K (push_alike K hR (hpd _) _) (hpd _) _) ?_
              intro p hp
              rcases List.mem_cons.1 ((Heap.push_perm _ _ _).mem_iff.1 hp) with rfl | hp
              · exact g0
              · rcases List.mem_cons.1 ((Heap.push_perm _ _ _).mem_iff.1 hp) with rfl | hp
                · exact g1
                · exact hgR p hp
    · rw [if_neg hb, if_neg hb]

end Search

/-! ### margins at nodes with a blank tail -/

section
variable {N : Num} (K : N.Canon)

theorem dotFrom_alike (vs q : List N.V) : ∀ {s s' : N.V}, K.can s = K.can s' →
    K.can (Vec.dotFrom N s vs q) = K.can (Vec.dotFrom N s' vs q) := by
  induction vs generalizing q with
  | nil => intro s s' h; simpa [Vec.dotFrom] using h
  | cons v vs ih =>
    intro s s' h
    cases q with
    | nil => simpa [Vec.dotFrom] using h
    | cons x xs =>
      unfold Vec.dotFrom
      exact ih xs (K.add _ h)

/-- Zero components do not count. -/
theorem dotFrom_zeros (vs q : List N.V) : ∀ {s : N.V}, (∀ v ∈ vs, v = N.zero) → (∀ x ∈ q, K.fin x) →
    K.can (Vec.dotFrom N s vs q) = K.can s := by
  induction vs generalizing q with
  | nil => intro s _ _; simp [Vec.dotFrom]
  | cons v vs ih =>
    intro s hv hq
    cases q with
    | nil => simp [Vec.dotFrom]
    | cons x xs =>
      unfold Vec.dotFrom
      rw [ih xs (fun a ha => hv a (by simp [ha])) (fun a ha => hq a (by simp [ha]))]
      rw [hv v (by simp)]
      exact K.add_zero _ (K.mul_zero (hq x (by simp)))

theorem dotFrom_append (a1 a2 b1 b2 : List N.V) (h : a1.length = b1.length) (s : N.V) :
    Vec.dotFrom N s (a1 ++ a2) (b1 ++ b2) = Vec.dotFrom N (Vec.dotFrom N s a1 b1) a2 b2 := by
  induction a1 generalizing b1 s with
  | nil =>
    have : b1 = [] := by simpa using h.symm
    subst this
    simp [Vec.dotFrom]
  | cons x xs ih =>
    cases b1 with
    | nil => simp at h
    | cons y ys =>
      simp only [List.cons_append]
      rw [show Vec.dotFrom N s (x :: (xs ++ a2)) (y :: (ys ++ b2)) = Vec.dotFrom N (N.add s (N.mul x y)) (xs ++ a2) (ys ++ b2) from rfl,
        ih ys (by simpa using h)]
      rfl

/-- The dot product with a vector whose components from `t` on are zero depends on the first `t` components only. -/
theorem dot_alike {vs q q' : List N.V} {t : Nat} (hv : ∀ v ∈ vs.drop t, v = N.zero) (h1 : vs.length = q.length)
    (h2 : vs.length = q'.length) (hq : ∀ x ∈ q, K.fin x) (hq' : ∀ x ∈ q', K.fin x) (ht : q.take t = q'.take t) :
    K.can (Vec.dot N vs q) = K.can (Vec.dot N vs q') := by
  unfold Vec.dot
  have e : ∀ p : List N.V, vs.length = p.length → (∀ x ∈ p, K.fin x) →
      K.can (Vec.dotFrom N N.zero vs p) = K.can (Vec.dotFrom N N.zero (vs.take t) (p.take t)) := by
    intro p hp hf
    conv_lhs => rw [← List.take_append_drop t vs, ← List.take_append_drop t p]
    rw [dotFrom_append _ _ _ _ (by simp [hp])]
    exact dotFrom_zeros K _ _ hv (fun x hx => hf x (List.mem_of_mem_drop hx))
  rw [e q h1 hq, e q' h2 hq', ht]

end
end Annoy
