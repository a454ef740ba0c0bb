import Verif.Model.Heap
import Mathlib.Data.List.Perm.Basic
import Mathlib.Tactic.Linarith
/-!
Lemmas about swaps, the selection phase, the heaps.
-/
namespace Annoy
namespace Srt
set_option linter.unusedSectionVars false
variable {α : Type} [Inhabited α]

theorem get_lt (s : List α) (i : Nat) (h : i < s.length) : get s i = s[i] := by simp [get, h]

theorem get_mem (s : List α) (i : Nat) (h : i < s.length) : get s i ∈ s := by
  rw [get_lt s i h]; exact List.getElem_mem h

@[simp] theorem swap_length (s : List α) (i j : Nat) : (swap s i j).length = s.length := by simp [swap]

theorem get_swap (s : List α) (i j k : Nat) (hi : i < s.length) (hj : j < s.length) :
    get (swap s i j) k = if k = j then get s i else if k = i then get s j else get s k := by
  unfold swap
  by_cases hk : k < s.length
  · rw [get_lt _ k (by simpa using hk)]
    by_cases h : k = j
    · subst h; simp
    · by_cases h2 : k = i
      · subst h2
        rw [if_neg h, if_pos rfl, List.getElem_set_ne (by omega)]; simp
      · rw [if_neg h, if_neg h2, List.getElem_set_ne (by omega), List.getElem_set_ne (by omega),
          get_lt s k hk]
  · have h1 : k ≠ j := by omega
    have h2 : k ≠ i := by omega
    rw [if_neg h1, if_neg h2]
    simp [get, List.getD, List.getElem?_eq_none (Nat.le_of_not_lt hk),
      List.getElem?_eq_none (l := (s.set i _).set j _) (i := k) (by simp; omega)]

theorem swap_perm (s : List α) (i j : Nat) (hi : i < s.length) (hj : j < s.length) :
    (swap s i j).Perm s := by
  unfold swap
  rw [get_lt s i hi, get_lt s j hj]
  exact List.set_set_perm hi hj

/-- `less` orders the elements satisfying `P`: asymmetric, and "not greater" is transitive. -/
structure Ord (less : α → α → Bool) (P : α → Prop) : Prop where
  asymm : ∀ x y, P x → P y → less x y = true → less y x = false
  trans : ∀ x y z, P x → P y → P z → less y x = false → less z y = false → less z x = false

/-- `x` may stand before `y`. -/
abbrev Le (less : α → α → Bool) (x y : α) : Prop := less y x = false

variable {less : α → α → Bool} {P : α → Prop}

theorem Ord.le_refl (h : Ord less P) {x : α} (hx : P x) : Le less x x := by
  by_contra hc
  have hc' : less x x = true := by simpa using hc
  have := h.asymm x x hx hx hc'
  simp [this] at hc'

theorem Ord.le_of_not (h : Ord less P) {x y : α} (hx : P x) (hy : P y) (hn : less x y = true) :
    Le less x y := h.asymm x y hx hy hn

theorem Ord.le_trans (h : Ord less P) {x y z : α} (hx : P x) (hy : P y) (hz : P z)
    (h1 : Le less x y) (h2 : Le less y z) : Le less x z := h.trans x y z hx hy hz h1 h2

/-! ### selection -/

theorem findMin_bounds (s : List α) (m j r : Nat) :
    findMin less s m j r = m ∨ (j ≤ findMin less s m j r ∧ findMin less s m j r < j + r) := by
  induction r generalizing m j with
  | zero => left; rfl
  | succ r ih =>
    unfold findMin
    split
    · rcases ih j (j + 1) with h | h
      · right; rw [h]; omega
      · right; omega
    · rcases ih m (j + 1) with h | h
      · left; exact h
      · right; omega

theorem findMin_le (h : Ord less P) (s : List α) (hP : ∀ i, i < s.length → P (get s i)) (m j r : Nat)
    (hm : m < s.length) (hr : j + r ≤ s.length) :
    Le less (get s (findMin less s m j r)) (get s m) ∧
    ∀ k, j ≤ k → k < j + r → Le less (get s (findMin less s m j r)) (get s k) := by
  induction r generalizing m j with
  | zero => exact ⟨h.le_refl (hP m hm), by intro k h1 h2; omega⟩
  | succ r ih =>
    unfold findMin
    have hb := fun m' => findMin_bounds (less := less) s m' (j + 1) r
    split
    · next hl =>
      obtain ⟨h1, h2⟩ := ih j (j + 1) (by omega) (by omega)
      have hlt : findMin less s j (j + 1) r < s.length := by rcases hb j with hb | hb <;> omega
      refine ⟨h.le_trans (hP _ hlt) (hP j (by omega)) (hP m hm) h1
        (h.le_of_not (hP j (by omega)) (hP m hm) hl), ?_⟩
      intro k hk1 hk2
      by_cases hkj : k = j
      · subst hkj; exact h1
      · exact h2 k (by omega) (by omega)
    · next hl =>
      obtain ⟨h1, h2⟩ := ih m (j + 1) hm (by omega)
      have hlt : findMin less s m (j + 1) r < s.length := by rcases hb m with hb | hb <;> omega
      refine ⟨h1, ?_⟩
      intro k hk1 hk2
      by_cases hkj : k = j
      · subst hkj
        exact h.le_trans (hP _ hlt) (hP m hm) (hP k (by omega)) h1 (by simpa using hl)
      · exact h2 k (by omega) (by omega)

theorem perm_P {s s' : List α} (hp : s'.Perm s) (hP : ∀ x ∈ s, P x) : ∀ x ∈ s', P x :=
  fun x hx => hP x (hp.mem_iff.1 hx)

theorem get_P {s : List α} (hP : ∀ x ∈ s, P x) (i : Nat) (hi : i < s.length) : P (get s i) :=
  hP _ (get_mem s i hi)

/-- Permutation and frame of the selection phase need no order. -/
theorem selectLoop_perm (less : α → α → Bool) (stop : Nat) (n : Nat) : ∀ (s : List α) (k : Nat),
    k + n ≤ stop → stop ≤ s.length →
    (selectLoop less stop s k n).Perm s ∧ (selectLoop less stop s k n).length = s.length ∧
    ∀ i, (i < k ∨ stop ≤ i) → get (selectLoop less stop s k n) i = get s i := by
  induction n with
  | zero => intro s k _ _; exact ⟨List.Perm.refl _, rfl, fun _ _ => rfl⟩
  | succ n ih =>
    intro s k hk hs
    unfold selectLoop
    have hb := findMin_bounds (less := less) s k (k + 1) (stop - (k + 1))
    have hm : findMin less s k (k + 1) (stop - (k + 1)) < stop ∧
        k ≤ findMin less s k (k + 1) (stop - (k + 1)) := by
      rcases hb with hb | hb <;> omega
    dsimp only
    generalize findMin less s k (k + 1) (stop - (k + 1)) = m at hm
    have hif : (if m ≠ k then swap s k m else s).Perm s ∧
        (if m ≠ k then swap s k m else s).length = s.length ∧
        ∀ i, (i < k ∨ stop ≤ i) → get (if m ≠ k then swap s k m else s) i = get s i := by
      split
      · refine ⟨swap_perm _ _ _ (by omega) (by omega), by simp, ?_⟩
        intro i hi
        rw [get_swap _ _ _ _ (by omega) (by omega), if_neg (by omega), if_neg (by omega)]
      · exact ⟨List.Perm.refl _, rfl, fun _ _ => rfl⟩
    obtain ⟨g1, g2, g3⟩ := hif
    obtain ⟨h1, h2, h3⟩ := ih (if m ≠ k then swap s k m else s) (k + 1) (by omega) (by omega)
    refine ⟨h1.trans g1, h2.trans g2, ?_⟩
    intro i hi
    rw [h3 i (by omega), g3 i hi]

theorem selectLoop_sorted (h : Ord less P) (start stop : Nat) (n : Nat) : ∀ (s : List α) (k : Nat),
    start ≤ k → k + n ≤ stop → stop ≤ s.length → (∀ x ∈ s, P x) →
    (∀ i j, start ≤ i → i < k → i < j → j < stop → Le less (get s i) (get s j)) →
    ∀ i j, start ≤ i → i < k + n → i < j → j < stop →
      Le less (get (selectLoop less stop s k n) i) (get (selectLoop less stop s k n) j) := by
  induction n with
  | zero => intro s k _ _ _ _ hinv; simpa [selectLoop] using hinv
  | succ n ih =>
    intro s k hk0 hk hs hP hinv
    unfold selectLoop
    have hb := findMin_bounds (less := less) s k (k + 1) (stop - (k + 1))
    have hm : findMin less s k (k + 1) (stop - (k + 1)) < stop ∧
        k ≤ findMin less s k (k + 1) (stop - (k + 1)) := by
      rcases hb with hb | hb <;> omega
    obtain ⟨hmin1, hmin2⟩ := findMin_le h s (fun i hi => get_P hP i hi) k (k + 1) (stop - (k + 1))
      (by omega) (by omega)
    dsimp only
    generalize findMin less s k (k + 1) (stop - (k + 1)) = m at hm hmin1 hmin2
    have hperm : (if m ≠ k then swap s k m else s).Perm s := by
      split
      · exact swap_perm _ _ _ (by omega) (by omega)
      · exact List.Perm.refl _
    have hget : ∀ i, get (if m ≠ k then swap s k m else s) i
        = if i = m then get s k else if i = k then get s m else get s i := by
      intro i
      split
      · rw [get_swap _ _ _ _ (by omega) (by omega)]
      · next hne =>
        have : m = k := by omega
        subst this
        split
        · next h1 => rw [h1]
        · rfl
    have hmin : ∀ j, k ≤ j → j < stop → Le less (get s m) (get s j) := by
      intro j h1 h2
      by_cases hjk : j = k
      · subst hjk; exact hmin1
      · exact hmin2 j (by omega) (by omega)
    have hlen : (if m ≠ k then swap s k m else s).length = s.length := hperm.length_eq
    have hres := ih (if m ≠ k then swap s k m else s) (k + 1) (by omega) (by omega) (by omega)
      (perm_P hperm hP) ?_
    · intro i j h1 h2 h3 h4
      exact hres i j h1 (by omega) h3 h4
    · intro i j h1 h2 h3 h4
      rw [hget i, hget j]
      by_cases hik : i = k
      · subst hik
        have hi : (if i = m then get s i else if i = i then get s m else get s i) = get s m := by
          split
          · next hh => rw [hh]
          · simp
        rw [hi]
        split
        · exact hmin i (by omega) (by omega)
        · rw [if_neg (by omega)]; exact hmin j (by omega) (by omega)
      · rw [if_neg (by omega), if_neg hik]
        split
        · exact hinv i k h1 (by omega) (by omega) (by omega)
        · split
          · exact hinv i m h1 (by omega) (by omega) (by omega)
          · exact hinv i j h1 (by omega) h3 h4

/-- On an already sorted range the insertion sort does nothing. -/
theorem insertLoop_noop (start stop n : Nat) : ∀ (s : List α) (i : Nat), start < i → i + n ≤ stop →
    (∀ a b, start ≤ a → a < b → b < stop → Le less (get s a) (get s b)) →
    insertLoop less start s i n = s := by
  induction n with
  | zero => intro s i _ _ _; rfl
  | succ n ih =>
    intro s i hi hn hs
    unfold insertLoop
    have : sink less start s i = s := by
      cases i with
      | zero => rfl
      | succ j =>
        unfold sink
        rw [if_neg]
        rintro ⟨_, h2⟩
        have := hs j (j + 1) (by omega) (by omega) (by omega)
        unfold Le at this
        simp [this] at h2
    rw [this]
    exact ih s (i + 1) (by omega) (by omega) hs

/-- The contract of `sort.Slice` with `Pair.Less`: a permutation, ascending if the elements are
ordered by `less`. -/
structure SortContract (less : α → α → Bool) (P : α → Prop) (sortPairs : List α → List α) : Prop where
  perm : ∀ s, (sortPairs s).Perm s
  sorted : ∀ s, (∀ x ∈ s, P x) → (sortPairs s).Pairwise (Le less)

theorem pairwise_get {s : List α} (h : s.Pairwise (Le less)) {i j : Nat} (hij : i < j)
    (hj : j < s.length) : Le less (get s i) (get s j) := by
  rw [get_lt s i (by omega), get_lt s j hj]
  exact List.pairwise_iff_getElem.1 h i j (by omega) hj hij

theorem get_append_left (a b : List α) (i : Nat) (h : i < a.length) : get (a ++ b) i = get a i := by
  simp [get, List.getD, List.getElem?_append_left h]

theorem get_append_right (a b : List α) (i : Nat) (h : a.length ≤ i) :
    get (a ++ b) i = get b (i - a.length) := by
  simp [get, List.getD, List.getElem?_append_right h]

theorem get_take (s : List α) (n i : Nat) (h : i < n) : get (s.take n) i = get s i := by
  simp [get, List.getD, h]

theorem get_drop (s : List α) (n i : Nat) : get (s.drop n) i = get s (n + i) := by
  simp [get, List.getD, List.getElem?_drop]

theorem mem_get {s : List α} {x : α} (h : x ∈ s) : ∃ i, i < s.length ∧ get s i = x := by
  obtain ⟨i, hi, he⟩ := List.mem_iff_getElem.1 h
  exact ⟨i, hi, by rw [get_lt s i hi]; exact he⟩

/-- `PartialSortSlice` always permutes its argument. -/
theorem partialSortSlice_perm {sortPairs : List α → List α} (hperm : ∀ s, (sortPairs s).Perm s)
    (less : α → α → Bool) (s : List α) (start : Nat) (middle : Int) (stop : Nat)
    (hstop : stop ≤ s.length) : (partialSortSlice less sortPairs s start middle stop).Perm s := by
  unfold partialSortSlice
  split
  · exact List.Perm.refl _
  · next h1 =>
    dsimp only
    have hm : middle.toNat ≤ stop ∧ start < middle.toNat := by omega
    split
    · exact hperm s
    · obtain ⟨g1, g2, g3⟩ := selectLoop_perm less stop (middle.toNat - start) s start (by omega) hstop
      split
      · set t := selectLoop less stop s start (middle.toNat - start)
        have e : t.take start ++ (t.drop start).take (middle.toNat - start) ++ t.drop middle.toNat = t := by
          rw [List.append_assoc]
          have : t.drop middle.toNat = (t.drop start).drop (middle.toNat - start) := by
            rw [List.drop_drop]; congr 1; omega
          rw [this, List.take_append_drop, List.take_append_drop]
        refine List.Perm.trans ?_ g1
        conv_rhs => rw [← e]
        exact ((hperm _).append_left _).append_right _
      · -- insertion sort
        have hsink : ∀ (j : Nat) (t : List α), j < t.length →
            (sink less start t j).Perm t := by
          intro j
          induction j with
          | zero => intro t _; exact List.Perm.refl _
          | succ j ih =>
            intro t ht
            unfold sink
            split
            · exact (ih _ (by simp; omega)).trans (swap_perm _ _ _ ht (by omega))
            · exact List.Perm.refl _
        have hins : ∀ (n : Nat) (t : List α) (i : Nat), i + n ≤ t.length →
            (insertLoop less start t i n).Perm t := by
          intro n
          induction n with
          | zero => intro t i _; exact List.Perm.refl _
          | succ n ih =>
            intro t i ht
            unfold insertLoop
            have hp := hsink i t (by omega)
            exact (ih _ (i + 1) (by rw [hp.length_eq]; omega)).trans hp
        exact (hins _ _ _ (by omega)).trans g1

/-- What the selection based part of `PartialSortSlice` does: nothing outside the range moves, and
every position before `middle` holds an element not greater than every later one of the range. -/
theorem partialSortSlice_spec {sortPairs : List α → List α} (hs : SortContract less P sortPairs)
    (h : Ord less P) (s : List α) (start middle stop : Nat) (h1 : start ≤ middle) (h2 : middle ≤ stop)
    (h3 : stop ≤ s.length) (hP : ∀ x ∈ s, P x)
    (hsz : ¬ (20 < stop - start ∧ stop - start < 5000000) ∨ (start = 0 ∧ stop = s.length)) :
    (∀ k, (k < start ∨ stop ≤ k) →
      get (partialSortSlice less sortPairs s start middle stop) k = get s k) ∧
    (∀ i j, start ≤ i → i < middle → i < j → j < stop →
      Le less (get (partialSortSlice less sortPairs s start middle stop) i)
        (get (partialSortSlice less sortPairs s start middle stop) j)) := by
  unfold partialSortSlice
  split
  · next hc =>
    refine ⟨fun _ _ => rfl, ?_⟩
    intro i j _ _ _ _
    omega
  · next hc =>
    dsimp only
    have hmid : (middle : Int).toNat = middle := by simp
    rw [hmid]
    split
    · next hlarge =>
      have hh : start = 0 ∧ stop = s.length := by
        rcases hsz with hsz | hsz
        · exact absurd ⟨hlarge.1, hlarge.2⟩ hsz
        · exact hsz
      have hlen := (hs.perm s).length_eq
      refine ⟨?_, ?_⟩
      · intro k hk
        simp [get, List.getD, List.getElem?_eq_none (l := sortPairs s) (i := k) (by omega),
          List.getElem?_eq_none (l := s) (i := k) (by omega)]
      · intro i j _ _ hij hj
        exact pairwise_get (hs.sorted s hP) hij (by omega)
    · obtain ⟨g1, g2, g3⟩ := selectLoop_perm less stop (middle - start) s start (by omega) h3
      have g4 := selectLoop_sorted h start stop (middle - start) s start le_rfl (by omega) h3 hP
        (by intro i j _ _ _ _; omega)
      generalize selectLoop less stop s start (middle - start) = t at g1 g2 g3 g4
      have hPt := perm_P g1 hP
      split
      · have hw : (sortPairs ((t.drop start).take (middle - start))).length = middle - start := by
          rw [(hs.perm _).length_eq]; simp; omega
        have hlt : (t.take start).length = start := by simp; omega
        have hA : ∀ k, k < start → get (t.take start ++
            sortPairs ((t.drop start).take (middle - start)) ++ t.drop middle) k = get t k := by
          intro k hk
          rw [get_append_left _ _ _ (by simp [hw]; omega), get_append_left _ _ _ (by omega),
            get_take _ _ _ hk]
        have hB : ∀ k, start ≤ k → k < middle → get (t.take start ++
            sortPairs ((t.drop start).take (middle - start)) ++ t.drop middle) k
            = get (sortPairs ((t.drop start).take (middle - start))) (k - start) := by
          intro k hk1 hk2
          rw [get_append_left _ _ _ (by simp [hw]; omega), get_append_right _ _ _ (by omega), hlt]
        have hC : ∀ k, middle ≤ k → get (t.take start ++
            sortPairs ((t.drop start).take (middle - start)) ++ t.drop middle) k = get t k := by
          intro k hk
          rw [get_append_right _ _ _ (by simp [hw]; omega), get_drop]
          congr 1
          simp [hw]; omega
        have hPw : ∀ x ∈ (t.drop start).take (middle - start), P x := by
          intro x hx
          exact hPt x (List.mem_of_mem_drop (List.mem_of_mem_take hx))
        refine ⟨?_, ?_⟩
        · intro k hk
          rcases hk with hk | hk
          · rw [hA k hk]; exact g3 k (Or.inl hk)
          · rw [hC k (by omega)]; exact g3 k (Or.inr hk)
        · intro i j hi1 hi2 hij hj
          rw [hB i hi1 hi2]
          by_cases hjm : j < middle
          · rw [hB j (by omega) hjm]
            exact pairwise_get (hs.sorted _ hPw) (by omega) (by omega)
          · rw [hC j (by omega)]
            have hmem : get (sortPairs ((t.drop start).take (middle - start))) (i - start) ∈
                (t.drop start).take (middle - start) :=
              (hs.perm _).mem_iff.1 (get_mem _ _ (by omega))
            obtain ⟨a, ha, hae⟩ := mem_get hmem
            have ha' : a < middle - start := by simp at ha; omega
            rw [← hae, get_take _ _ _ ha', get_drop]
            exact g4 (start + a) j (by omega) (by omega) (by omega) hj
      · have : insertLoop less start t (start + 1) (middle - (start + 1)) = t := by
          apply insertLoop_noop start middle _ _ _ (by omega) (by omega)
          intro a b ha hab hb
          exact g4 a b ha (by omega) hab (by omega)
        rw [this]
        refine ⟨g3, ?_⟩
        intro i j hi1 hi2 hij hj
        exact g4 i j hi1 (by omega) hij hj

end Srt
end Annoy
