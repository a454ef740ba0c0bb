import Verif.Proof.Heap
import Verif.Spec.Sort
import Verif.Model.Concrete
/-!
The pair order; IEEE comparison; heap based sorting.
-/
namespace Annoy
set_option linter.unusedSectionVars false

theorem pairLess_iff (N : Num) (x y : N.V × Nat) : pairLess N x y = true ↔ PairLt N x y := by
  simp [pairLess, PairLt]

theorem pairLess_false (N : Num) (x y : N.V × Nat) : pairLess N y x = false ↔ NotAfter (PairLt N) x y := by
  unfold NotAfter
  rw [← pairLess_iff]; simp

/-- First component is not a NaN. -/
def PairOk (N : Num) (p : N.V × Nat) : Prop := N.Ordinary p.1

theorem pair_irrefl {N : Num} (h : N.Lawful) (x : N.V × Nat) : ¬ PairLt N x x := by
  rintro (h1 | h1)
  · rw [h.lt_irrefl] at h1; cases h1
  · omega

theorem lt_eq_absurd {N : Num} (h : N.Lawful) {x y : N.V} (h1 : N.lt x y = true) (h2 : N.eq x y = true) : False := by
  have := h.lt_of_lt_of_eq x y x h1 (h.eq_symm _ _ h2)
  rw [h.lt_irrefl] at this; cases this

theorem pair_trans {N : Num} (h : N.Lawful) (x y z : N.V × Nat) (h1 : PairLt N x y) (h2 : PairLt N y z) :
    PairLt N x z := by
  rcases h1 with h1 | h1 <;> rcases h2 with h2 | h2
  · exact Or.inl (h.lt_trans _ _ _ h1 h2)
  · exact Or.inl (h.lt_of_lt_of_eq _ _ _ h1 h2.1)
  · exact Or.inl (h.lt_of_eq_of_lt _ _ _ h1.1 h2)
  · exact Or.inr ⟨h.eq_trans _ _ _ h1.1 h2.1, by omega⟩

theorem pair_total {N : Num} (h : N.Lawful) (x y : N.V × Nat) (hx : PairOk N x) (hy : PairOk N y) :
    PairLt N x y ∨ PairLt N y x ∨ (N.eq x.1 y.1 = true ∧ x.2 = y.2) := by
  rcases h.trichotomy _ _ hx hy with h1 | h1 | h1
  · exact Or.inl (Or.inl h1)
  · rcases Nat.lt_trichotomy x.2 y.2 with h2 | h2 | h2
    · exact Or.inl (Or.inr ⟨h1, h2⟩)
    · exact Or.inr (Or.inr ⟨h1, h2⟩)
    · exact Or.inr (Or.inl (Or.inr ⟨h.eq_symm _ _ h1, h2⟩))
  · exact Or.inr (Or.inl (Or.inl h1))

theorem pair_lt_congr {N : Num} (h : N.Lawful) {x y z : N.V × Nat} (h1 : N.eq x.1 y.1 = true)
    (h2 : x.2 = y.2) (h3 : PairLt N y z) : PairLt N x z := by
  rcases h3 with h3 | h3
  · exact Or.inl (h.lt_of_eq_of_lt _ _ _ h1 h3)
  · exact Or.inr ⟨h.eq_trans _ _ _ h1 h3.1, by omega⟩

theorem pairOrd {N : Num} (h : N.Lawful) : Srt.Ord (pairLess N) (PairOk N) := by
  constructor
  · intro x y _ _ h1
    by_contra hc
    have h1 := (pairLess_iff N x y).1 h1
    have h2 := (pairLess_iff N y x).1 (by simpa using hc)
    exact pair_irrefl h x (pair_trans h _ _ _ h1 h2)
  · intro x y z hx hy hz h1 h2
    rw [pairLess_false] at h1 h2 ⊢
    intro hzx
    rcases pair_total h x y hx hy with h3 | h3 | h3
    · exact h2 (pair_trans h _ _ _ hzx h3)
    · exact h1 h3
    · apply h2
      rcases hzx with h4 | h4
      · exact Or.inl (h.lt_of_lt_of_eq _ _ _ h4 h3.1)
      · exact Or.inr ⟨h.eq_trans _ _ _ h4.1 h3.1, by omega⟩

/-! ### IEEE comparisons -/

open Ieee in
theorem Ieee.lawful_of_key {V : Type} (nan : V → Bool) (key : V → Int) (N : Num) (hV : N.V = V)
    (hlt : ∀ x y, N.lt x y = (!nan (hV ▸ x) && !nan (hV ▸ y) && decide (key (hV ▸ x) < key (hV ▸ y))))
    (heq : ∀ x y, N.eq x y = (!nan (hV ▸ x) && !nan (hV ▸ y) && decide (key (hV ▸ x) = key (hV ▸ y)))) :
    N.Lawful := by
  subst hV
  simp only at hlt heq
  constructor
  · intro x; simp [hlt]
  · intro x y z; simp only [hlt, Bool.and_eq_true, Bool.not_eq_true', decide_eq_true_eq]
    rintro ⟨⟨a, b⟩, c⟩ ⟨⟨d, e⟩, f⟩; exact ⟨⟨a, e⟩, by omega⟩
  · intro x y; simp only [Num.Ordinary, hlt, heq, Bool.and_eq_true, Bool.not_eq_true', decide_eq_true_eq]
    rintro ⟨⟨a, b⟩, c⟩ ⟨⟨d, e⟩, f⟩
    rcases Int.lt_trichotomy (key x) (key y) with h | h | h
    · exact Or.inl ⟨⟨a, d⟩, h⟩
    · exact Or.inr (Or.inl ⟨⟨a, d⟩, h⟩)
    · exact Or.inr (Or.inr ⟨⟨d, a⟩, h⟩)
  · intro x y; simp only [heq, Bool.and_eq_true, Bool.not_eq_true', decide_eq_true_eq]
    rintro ⟨⟨a, b⟩, c⟩; exact ⟨⟨b, a⟩, c.symm⟩
  · intro x y z; simp only [heq, Bool.and_eq_true, Bool.not_eq_true', decide_eq_true_eq]
    rintro ⟨⟨a, b⟩, c⟩ ⟨⟨d, e⟩, f⟩; exact ⟨⟨a, e⟩, by omega⟩
  · intro x y z; simp only [hlt, heq, Bool.and_eq_true, Bool.not_eq_true', decide_eq_true_eq]
    rintro ⟨⟨a, b⟩, c⟩ ⟨⟨d, e⟩, f⟩; exact ⟨⟨a, e⟩, by omega⟩
  · intro x y z; simp only [hlt, heq, Bool.and_eq_true, Bool.not_eq_true', decide_eq_true_eq]
    rintro ⟨⟨a, b⟩, c⟩ ⟨⟨d, e⟩, f⟩; exact ⟨⟨a, e⟩, by omega⟩

theorem ieee32_lawful : ieee32.Lawful :=
  Ieee.lawful_of_key (V := BitVec 32) (fun x => Ieee.f32.isNaN x.toNat) (fun x => Ieee.f32.key x.toNat)
    ieee32 rfl (fun _ _ => rfl) (fun _ _ => rfl)

theorem ieee64_lawful : ieee64.Lawful :=
  Ieee.lawful_of_key (V := BitVec 64) (fun x => Ieee.f64.isNaN x.toNat) (fun x => Ieee.f64.key x.toNat)
    ieee64 rfl (fun _ _ => rfl) (fun _ _ => rfl)

/-! ### heap sort -/
namespace Srt
variable {α : Type} [Inhabited α] {less : α → α → Bool} {P : α → Prop}

theorem pairwise_of_get {s : List α} (h : ∀ i j, i < j → j < s.length → Le less (get s i) (get s j)) :
    s.Pairwise (Le less) := by
  rw [List.pairwise_iff_getElem]
  intro i j hi hj hij
  have := h i j hij hj
  rwa [get_lt s i hi, get_lt s j hj] at this

theorem sortPairs2_perm (less : α → α → Bool) (s : List α) : (sortPairs2 less s).Perm s := by
  unfold sortPairs2
  obtain ⟨h1, _, _⟩ := buildMaxHeap_spec less s s.length le_rfl
  obtain ⟨g1, _, _⟩ := extractLoop_spec (less := less) (P := fun _ => True) s.length
    (buildMaxHeap less s s.length) (by rw [h1.length_eq])
  exact g1.trans h1

theorem sortPairs2_sorted (ho : Ord less P) (s : List α) (hP : ∀ x ∈ s, P x) :
    (sortPairs2 less s).Pairwise (Le less) := by
  apply pairwise_of_get
  intro i j hij hj
  rw [(sortPairs2_perm less s).length_eq] at hj
  obtain ⟨h1, _, h3⟩ := buildMaxHeap_spec less s s.length le_rfl
  obtain ⟨_, _, g3⟩ := extractLoop_spec (less := less) (P := P) s.length
    (buildMaxHeap less s s.length) (by rw [h1.length_eq])
  have := g3 ho (perm_P h1 hP) (h3 ho hP) (by rw [h1.length_eq]; intro i j _ _ _; omega) i j hij
    (by rw [h1.length_eq]; exact hj)
  exact this

theorem set0_perm (h : List α) (x : α) (hn : 0 < h.length) :
    (get h 0 :: h.set 0 x).Perm (x :: h) := by
  cases h with
  | nil => simp at hn
  | cons a t => simp [get]; exact List.Perm.swap _ _ _

theorem get_set (h : List α) (x : α) (i k : Nat) (hi : k ≠ i) : get (h.set i x) k = get h k := by
  simp [get, List.getD, Ne.symm hi]

theorem select2Loop_spec (hn : Nat) (h0 : 0 < hn) : ∀ (t h done : List α), h.length = hn →
    ((select2Loop less hn h done t).1 ++ (select2Loop less hn h done t).2).Perm (h ++ done ++ t) ∧
    (select2Loop less hn h done t).1.length = hn ∧
    (Ord less P → (∀ x ∈ h, P x) → (∀ x ∈ done, P x) → (∀ x ∈ t, P x) → IsMaxHeap less h 0 hn →
      (∀ y ∈ h, ∀ d ∈ done, Le less y d) →
      ∀ y ∈ (select2Loop less hn h done t).1, ∀ d ∈ (select2Loop less hn h done t).2, Le less y d) := by
  intro t
  induction t with
  | nil =>
    intro h done hl
    refine ⟨by simp [select2Loop], by simpa [select2Loop] using hl, ?_⟩
    intro _ _ _ _ _ h3
    simpa [select2Loop] using h3
  | cons x t ih =>
    intro h done hl
    unfold select2Loop
    split
    · next hx =>
      have hsp := set0_perm h x (by omega)
      obtain ⟨g1, g2⟩ := siftDown_perm less hn hn (h.set 0 x) 0 (by simp; omega) (by simp [hl])
      obtain ⟨i1, i2, i3⟩ := ih (siftDown less hn hn (h.set 0 x) 0) (done ++ [get h 0])
        (by rw [g1.length_eq]; simpa using hl)
      refine ⟨?_, i2, ?_⟩
      · refine i1.trans ?_
        have e1 : (siftDown less hn hn (h.set 0 x) 0 ++ (done ++ [get h 0]) ++ t).Perm
            (h.set 0 x ++ (done ++ [get h 0]) ++ t) := (g1.append_right _).append_right _
        refine e1.trans ?_
        have e2 : (h.set 0 x ++ (done ++ [get h 0]) ++ t).Perm ((get h 0 :: h.set 0 x) ++ (done ++ t)) := by
          have : (h.set 0 x ++ (done ++ [get h 0]) ++ t) = (h.set 0 x ++ done) ++ (get h 0 :: t) := by simp
          rw [this]
          refine List.perm_middle.trans ?_
          simp
        refine e2.trans ((hsp.append_right _).trans ?_)
        have e3 : (x :: h ++ (done ++ t)) = x :: ((h ++ done) ++ t) := by simp
        rw [e3]
        have := (List.perm_middle (a := x) (l₁ := h ++ done) (l₂ := t)).symm
        simpa using this
      · intro ho hP hPd hPt hm hle
        have hget0 : get h 0 ∈ h := get_mem _ _ (by omega)
        have hPx : P x := hPt x (by simp)
        have hroot := maxHeap_root ho h hn (by omega) hP hm
        have hset : ∀ y ∈ h.set 0 x, P y ∧ Le less y (get h 0) := by
          intro y hy
          rcases List.mem_or_eq_of_mem_set hy with hy | hy
          · obtain ⟨k, hk, rfl⟩ := mem_get hy
            exact ⟨hP _ hy, hroot k (by omega)⟩
          · subst hy
            exact ⟨hPx, ho.le_of_not hPx (hP _ hget0) hx⟩
        apply i3 ho
        · intro y hy; exact (hset y (g1.mem_iff.1 hy)).1
        · intro y hy
          rcases List.mem_append.1 hy with hy | hy
          · exact hPd y hy
          · simp at hy; subst hy; exact hP _ hget0
        · intro y hy; exact hPt y (by simp [hy])
        · apply siftRoot_heap ho _ _ (by simp; omega) (by simp [hl]) (fun y hy => (hset y hy).1)
          intro k hk0 hk hne
          rw [get_set _ _ _ _ (by omega), get_set _ _ _ _ hne]
          exact hm k hk0 hk (by omega)
        · intro y hy d hd
          have hy' := hset y (g1.mem_iff.1 hy)
          rcases List.mem_append.1 hd with hd | hd
          · exact ho.le_trans hy'.1 (hP _ hget0) (hPd d hd) hy'.2 (hle _ hget0 d hd)
          · simp at hd; subst hd; exact hy'.2
    · next hx =>
      obtain ⟨i1, i2, i3⟩ := ih h (done ++ [x]) hl
      refine ⟨by simpa using i1, i2, ?_⟩
      intro ho hP hPd hPt hm hle
      have hget0 : get h 0 ∈ h := get_mem _ _ (by omega)
      have hPx : P x := hPt x (by simp)
      apply i3 ho hP
      · intro y hy
        rcases List.mem_append.1 hy with hy | hy
        · exact hPd y hy
        · simp at hy; subst hy; exact hPx
      · intro y hy; exact hPt y (by simp [hy])
      · exact hm
      · intro y hy d hd
        rcases List.mem_append.1 hd with hd | hd
        · exact hle y hy d hd
        · simp at hd; subst hd
          obtain ⟨k, hk, rfl⟩ := mem_get hy
          exact ho.le_trans (hP _ hy) (hP _ hget0) hPx
            (maxHeap_root ho h hn (by omega) hP hm k (by omega)) (by simpa using hx)

end Srt
end Annoy
