import Verif.Proof.Sort
/-!
Heaps: `container/heap` (min-heap) and `heapify`/`maxHeapify` (max-heap).
-/
namespace Annoy
set_option linter.unusedSectionVars false
open Srt

variable {α : Type} [Inhabited α]

/-! ### Permutation facts (no order needed) -/
namespace Heap

theorem up_perm (less : α → α → Bool) (fuel : Nat) : ∀ (h : List α) (j : Nat), j < h.length →
    (up less fuel h j).Perm h := by
  induction fuel with
  | zero => intro h j _; exact List.Perm.refl _
  | succ n ih =>
    intro h j hj
    unfold up
    dsimp only
    split
    · exact List.Perm.refl _
    · exact (ih _ _ (by simp; omega)).trans (swap_perm _ _ _ (by omega) hj)

theorem down_perm (less : α → α → Bool) (n : Nat) (fuel : Nat) : ∀ (h : List α) (i : Nat), i < h.length →
    n ≤ h.length → (down less n fuel h i).Perm h ∧
      ∀ k, n ≤ k → i < n → get (down less n fuel h i) k = get h k := by
  induction fuel with
  | zero => intro h i _ _; exact ⟨List.Perm.refl _, fun _ _ _ => rfl⟩
  | succ m ih =>
    intro h i hi hn
    unfold down
    dsimp only
    split
    · exact ⟨List.Perm.refl _, fun _ _ _ => rfl⟩
    · generalize hj : (if 2 * i + 1 + 1 < n ∧ less (get h (2 * i + 1 + 1)) (get h (2 * i + 1)) = true
          then 2 * i + 1 + 1 else 2 * i + 1) = j
      have hjn : j < n := by
        rw [← hj]; split <;> omega
      split
      · exact ⟨List.Perm.refl _, fun _ _ _ => rfl⟩
      · obtain ⟨h1, h2⟩ := ih (swap h i j) j (by simp; omega) (by simpa using hn)
        refine ⟨h1.trans (swap_perm _ _ _ hi (by omega)), ?_⟩
        intro k hk hin
        rw [h2 k hk hjn, get_swap _ _ _ _ hi (by omega), if_neg (by omega), if_neg (by omega)]

theorem push_perm (less : α → α → Bool) (h : List α) (x : α) : (push less h x).Perm (x :: h) := by
  unfold push
  refine (up_perm less _ _ _ (by simp)).trans ?_
  exact List.perm_append_singleton x h

theorem pop_none (less : α → α → Bool) (h : List α) : pop less h = none ↔ h = [] := by
  unfold pop
  cases h <;> simp

theorem pop_perm (less : α → α → Bool) (h : List α) (x : α) (h' : List α) (hp : pop less h = some (x, h')) :
    (x :: h').Perm h := by
  unfold pop at hp
  split at hp
  · cases hp
  · next hne =>
    have hl : 0 < h.length := by
      cases h with
      | nil => simp at hne
      | cons a t => simp
    simp only [Option.some.injEq, Prod.mk.injEq] at hp
    obtain ⟨h1, h2⟩ := hp
    obtain ⟨g1, _⟩ := down_perm less (h.length - 1) (h.length - 1) (swap h 0 (h.length - 1)) 0
      (by simpa using hl) (by simp)
    set d := down less (h.length - 1) (h.length - 1) (swap h 0 (h.length - 1)) 0
    have hd : d.length = h.length := by rw [g1.length_eq]; simp
    have e : d = h' ++ [x] := by
      rw [← h1, ← h2, get_lt d _ (by omega)]
      have := List.take_append_getElem (l := d) (i := h.length - 1) (by omega)
      rw [this, List.take_of_length_le (by omega)]
    have : (x :: h').Perm d := by rw [e]; exact (List.perm_append_singleton x h').symm
    exact this.trans (g1.trans (swap_perm _ _ _ hl (by omega)))

/-- The parent of every element is not greater. -/
def IsHeap (less : α → α → Bool) (h : List α) (n : Nat) : Prop :=
  ∀ k, 0 < k → k < n → Le less (get h ((k - 1) / 2)) (get h k)

variable {less : α → α → Bool} {P : α → Prop}

theorem up_heap (ho : Ord less P) (fuel : Nat) : ∀ (h : List α) (j : Nat), j < fuel → j < h.length →
    (∀ x ∈ h, P x) →
    (∀ k, 0 < k → k < h.length → k ≠ j → Le less (get h ((k - 1) / 2)) (get h k)) →
    (∀ k, 0 < k → k < h.length → (k - 1) / 2 = j → 0 < j →
      Le less (get h ((j - 1) / 2)) (get h k)) →
    IsHeap less (up less fuel h j) h.length := by
  induction fuel with
  | zero => intro h j hj; omega
  | succ m ih =>
    intro h j hjm hj hP h1 h2
    unfold up
    dsimp only
    split
    · next hc =>
      intro k hk0 hk
      by_cases hkj : k = j
      · subst hkj
        rcases hc with hc | hc
        · omega
        · exact hc
      · exact h1 k hk0 hk hkj
    · next hc =>
      have hc1 : (j - 1) / 2 ≠ j := fun hh => hc (Or.inl hh)
      have hc2 : less (get h j) (get h ((j - 1) / 2)) = true := by
        by_contra hh; exact hc (Or.inr (by simpa using hh))
      set i := (j - 1) / 2 with hi
      have hj0 : 0 < j := by omega
      have hij : i < j := by omega
      have hget := fun k => get_swap h i j k (by omega) hj
      have hp := swap_perm h i j (by omega) hj
      have hPk := fun k hk => get_P hP k hk
      have := ih (swap h i j) i (by omega) (by simp; omega) (perm_P hp hP) ?_ ?_
      · simpa using this
      · intro k hk0 hk hki
        simp only [swap_length] at hk
        rw [hget, hget]
        by_cases hkj : k = j
        · subst hkj
          rw [← hi, if_neg (by omega), if_pos rfl, if_pos rfl]
          exact ho.le_of_not (hPk k hj) (hPk i (by omega)) hc2
        · rw [if_neg hkj, if_neg hki]
          by_cases hpj : (k - 1) / 2 = j
          · rw [if_pos hpj]
            exact h2 k hk0 hk hpj hj0
          · rw [if_neg hpj]
            by_cases hpi : (k - 1) / 2 = i
            · rw [if_pos hpi]
              have := h1 k hk0 hk hkj
              rw [hpi] at this
              exact ho.le_trans (hPk j hj) (hPk i (by omega)) (hPk k hk)
                (ho.le_of_not (hPk j hj) (hPk i (by omega)) hc2) this
            · rw [if_neg hpi]; exact h1 k hk0 hk hkj
      · intro k hk0 hk hki hi0
        simp only [swap_length] at hk
        rw [hget, hget]
        rw [if_neg (by omega), if_neg (by omega)]
        have hA := h1 i hi0 (by omega) (by omega)
        by_cases hkj : k = j
        · rw [if_pos hkj]; exact hA
        · rw [if_neg hkj, if_neg (by omega)]
          have hB := h1 k hk0 hk hkj
          rw [hki] at hB
          exact ho.le_trans (hPk _ (by omega)) (hPk i (by omega)) (hPk k hk) hA hB

theorem down_heap (ho : Ord less P) (n : Nat) (fuel : Nat) : ∀ (h : List α) (i : Nat), n - i ≤ fuel →
    i < h.length → n ≤ h.length → (∀ x ∈ h, P x) →
    (∀ k, 0 < k → k < n → (k - 1) / 2 ≠ i → Le less (get h ((k - 1) / 2)) (get h k)) →
    (∀ k, 0 < k → k < n → (k - 1) / 2 = i → 0 < i →
      Le less (get h ((i - 1) / 2)) (get h k)) →
    IsHeap less (down less n fuel h i) n := by
  induction fuel with
  | zero =>
    intro h i hf hi hn hP h1 h2 k hk0 hk
    exact h1 k hk0 hk (by omega)
  | succ m ih =>
    intro h i hf hi hn hP h1 h2
    have hPk := fun k hk => get_P hP k hk
    unfold down
    dsimp only
    split
    · intro k hk0 hk
      exact h1 k hk0 hk (by omega)
    · next hj1 =>
      generalize hjd : (if 2 * i + 1 + 1 < n ∧ less (get h (2 * i + 1 + 1)) (get h (2 * i + 1)) = true
          then 2 * i + 1 + 1 else 2 * i + 1) = j
      have hj : j < n ∧ (j - 1) / 2 = i ∧ 0 < j ∧
          ∀ k, 0 < k → k < n → (k - 1) / 2 = i → Le less (get h j) (get h k) := by
        rw [← hjd]
        split
        · next hc =>
          refine ⟨hc.1, by omega, by omega, ?_⟩
          intro k hk0 hk hki
          have : k = 2 * i + 1 ∨ k = 2 * i + 1 + 1 := by omega
          rcases this with rfl | rfl
          · exact ho.le_of_not (hPk _ (by omega)) (hPk _ (by omega)) hc.2
          · exact ho.le_refl (hPk _ (by omega))
        · next hc =>
          refine ⟨by omega, by omega, by omega, ?_⟩
          intro k hk0 hk hki
          have : k = 2 * i + 1 ∨ k = 2 * i + 1 + 1 := by omega
          rcases this with rfl | rfl
          · exact ho.le_refl (hPk _ (by omega))
          · by_contra hh
            exact hc ⟨hk, by simpa [Le] using hh⟩
      obtain ⟨hjn, hji, hj0, hjmin⟩ := hj
      split
      · next hc =>
        intro k hk0 hk
        by_cases hki : (k - 1) / 2 = i
        · rw [hki]
          exact ho.le_trans (hPk i hi) (hPk j (by omega)) (hPk k (by omega)) hc (hjmin k hk0 hk hki)
        · exact h1 k hk0 hk hki
      · next hc =>
        have hc2 : less (get h j) (get h i) = true := by simpa using hc
        have hget := fun k => get_swap h i j k hi (by omega)
        have hp := swap_perm h i j hi (by omega)
        apply ih (swap h i j) j (by omega) (by simp; omega) (by simpa using hn) (perm_P hp hP)
        · intro k hk0 hk hkj
          rw [hget, hget]
          by_cases hk1 : k = j
          · subst hk1
            rw [hji, if_neg (by omega), if_pos rfl, if_pos rfl]
            exact ho.le_of_not (hPk k (by omega)) (hPk i hi) hc2
          · rw [if_neg hkj, if_neg hk1]
            by_cases hk2 : k = i
            · rw [if_pos hk2, if_neg (by omega)]
              have := h2 j hj0 hjn hji (by omega)
              subst hk2; exact this
            · rw [if_neg hk2]
              by_cases hpi : (k - 1) / 2 = i
              · rw [if_pos hpi]; exact hjmin k hk0 hk hpi
              · rw [if_neg hpi]; exact h1 k hk0 hk hpi
        · intro k hk0 hk hkj _
          rw [hget, hget, hji, if_neg (by omega), if_pos rfl, if_neg (by omega), if_neg (by omega)]
          have := h1 k hk0 hk (by omega)
          rw [hkj] at this
          exact this

theorem heap_root (ho : Ord less P) (h : List α) (n : Nat) (hn : n ≤ h.length) (hP : ∀ x ∈ h, P x)
    (hh : IsHeap less h n) : ∀ k, k < n → Le less (get h 0) (get h k) := by
  intro k
  induction k using Nat.strong_induction_on with
  | _ k ih =>
    intro hk
    by_cases h0 : k = 0
    · subst h0; exact ho.le_refl (get_P hP _ (by omega))
    · exact ho.le_trans (get_P hP _ (by omega)) (get_P hP _ (by omega)) (get_P hP _ (by omega))
        (ih ((k - 1) / 2) (by omega) (by omega)) (hh k (by omega) hk)

theorem IsHeap.congr {h h' : List α} {n : Nat} (hh : IsHeap less h n)
    (he : ∀ k, k < n → get h' k = get h k) : IsHeap less h' n := by
  intro k hk0 hk
  rw [he _ (by omega), he _ hk]; exact hh k hk0 hk

theorem push_heap (ho : Ord less P) (h : List α) (x : α) (hP : ∀ y ∈ h, P y) (hx : P x)
    (hh : IsHeap less h h.length) : IsHeap less (push less h x) (push less h x).length := by
  have hl : (push less h x).length = (h ++ [x]).length := by
    rw [(push_perm less h x).length_eq]; simp
  rw [hl]
  unfold push
  apply up_heap ho _ _ _ (by omega) (by simp)
  · intro y hy
    rcases List.mem_append.1 hy with hy | hy
    · exact hP y hy
    · simp at hy; subst hy; exact hx
  · intro k hk0 hk hkn
    simp at hk
    rw [get_append_left _ _ _ (by omega), get_append_left _ _ _ (by omega)]
    exact hh k hk0 (by omega)
  · intro k hk0 hk hkn
    simp at hk
    omega

theorem pop_heap (ho : Ord less P) (h : List α) (x : α) (h' : List α) (hP : ∀ y ∈ h, P y)
    (hh : IsHeap less h h.length) (hp : pop less h = some (x, h')) :
    IsHeap less h' h'.length ∧ x = get h 0 ∧ ∀ y ∈ h, Le less x y := by
  have hperm := pop_perm less h x h' hp
  unfold pop at hp
  split at hp
  · cases hp
  · next hne =>
    have hl : 0 < h.length := by
      cases h with
      | nil => simp at hne
      | cons a t => simp
    simp only [Option.some.injEq, Prod.mk.injEq] at hp
    obtain ⟨h1, h2⟩ := hp
    obtain ⟨g1, g2⟩ := down_perm less (h.length - 1) (h.length - 1) (swap h 0 (h.length - 1)) 0
      (by simpa using hl) (by simp)
    have hlen' : h'.length = h.length - 1 := by
      have := hperm.length_eq; simp at this; omega
    have hxe : x = get h 0 := by
      rw [← h1]
      by_cases h0 : 0 < h.length - 1
      · rw [g2 _ le_rfl h0, get_swap _ _ _ _ hl (by omega), if_pos rfl]
      · have : h.length - 1 = 0 := by omega
        rw [this, down, get_swap _ _ _ _ hl hl]; simp
    refine ⟨?_, hxe, ?_⟩
    · rw [hlen']
      have hd := down_heap ho (h.length - 1) (h.length - 1) (swap h 0 (h.length - 1)) 0 (by omega)
        (by simpa using hl) (by simp) (perm_P (swap_perm _ _ _ hl (by omega)) hP) ?_ ?_
      · rw [← h2]
        exact hd.congr fun k hk => get_take _ _ _ hk
      · intro k hk0 hk hki
        rw [get_swap _ _ _ _ hl (by omega), get_swap _ _ _ _ hl (by omega),
          if_neg (by omega), if_neg hki, if_neg (by omega), if_neg (by omega)]
        exact hh k hk0 (by omega)
      · intro k _ _ _ h0; omega
    · intro y hy
      obtain ⟨k, hk, rfl⟩ := mem_get hy
      rw [hxe]
      exact heap_root ho h _ le_rfl hP hh k hk

end Heap

/-! ### `maxHeapify` -/
namespace Srt
variable {less : α → α → Bool} {P : α → Prop}

/-- The parent of every element from position `lo` on is not smaller. -/
def IsMaxHeap (less : α → α → Bool) (s : List α) (lo n : Nat) : Prop :=
  ∀ k, 0 < k → k < n → lo ≤ (k - 1) / 2 → Le less (get s k) (get s ((k - 1) / 2))

theorem siftDown_perm (less : α → α → Bool) (n : Nat) (fuel : Nat) : ∀ (s : List α) (i : Nat),
    i < s.length → n ≤ s.length → (siftDown less n fuel s i).Perm s ∧
      ∀ k, (n ≤ k ∨ k < i) → i < n → get (siftDown less n fuel s i) k = get s k := by
  induction fuel with
  | zero => intro s i _ _; exact ⟨List.Perm.refl _, fun _ _ _ => rfl⟩
  | succ m ih =>
    intro s i hi hn
    unfold siftDown
    dsimp only
    generalize hl1 : (if 2 * i + 1 < n ∧ less (get s i) (get s (2 * i + 1)) = true
      then 2 * i + 1 else i) = l1
    generalize hl2 : (if 2 * i + 2 < n ∧ less (get s l1) (get s (2 * i + 2)) = true
      then 2 * i + 2 else l1) = l2
    have h2 : l2 = i ∨ (i < l2 ∧ l2 < n) := by
      have h1 : l1 = i ∨ (i < l1 ∧ l1 < n) := by
        rw [← hl1]
        split
        · right; omega
        · left; rfl
      rw [← hl2]
      split
      · right; omega
      · exact h1
    split
    · next hne =>
      have h2' : i < l2 ∧ l2 < n := by rcases h2 with h2 | h2; exact absurd h2 hne; exact h2
      obtain ⟨g1, g2⟩ := ih (swap s i l2) l2 (by simp; omega) (by simpa using hn)
      refine ⟨g1.trans (swap_perm _ _ _ hi (by omega)), ?_⟩
      intro k hk hin
      rw [g2 k (by omega) h2'.2, get_swap _ _ _ _ hi (by omega), if_neg (by omega), if_neg (by omega)]
    · exact ⟨List.Perm.refl _, fun _ _ _ => rfl⟩

theorem siftDown_heap (ho : Ord less P) (n lo : Nat) (fuel : Nat) : ∀ (s : List α) (i : Nat),
    n - i ≤ fuel → i < s.length → n ≤ s.length → lo ≤ i → (∀ x ∈ s, P x) →
    (∀ k, 0 < k → k < n → lo ≤ (k - 1) / 2 → (k - 1) / 2 ≠ i →
      Le less (get s k) (get s ((k - 1) / 2))) →
    (∀ k, 0 < k → k < n → (k - 1) / 2 = i → 0 < i → lo ≤ (i - 1) / 2 →
      Le less (get s k) (get s ((i - 1) / 2))) →
    IsMaxHeap less (siftDown less n fuel s i) lo n := by
  induction fuel with
  | zero =>
    intro s i hf hi hn hlo hP h1 h2 k hk0 hk hlk
    exact h1 k hk0 hk hlk (by omega)
  | succ m ih =>
    intro s i hf hi hn hlo hP h1 h2
    have hPk := fun k hk => get_P hP k hk
    unfold siftDown
    dsimp only
    generalize hl1 : (if 2 * i + 1 < n ∧ less (get s i) (get s (2 * i + 1)) = true
      then 2 * i + 1 else i) = l1
    generalize hl2 : (if 2 * i + 2 < n ∧ less (get s l1) (get s (2 * i + 2)) = true
      then 2 * i + 2 else l1) = l2
    have hb1 : l1 < s.length ∧ Le less (get s i) (get s l1) ∧
        (2 * i + 1 < n → Le less (get s (2 * i + 1)) (get s l1)) ∧
        (l1 = i ∨ (l1 = 2 * i + 1 ∧ l1 < n)) := by
      rw [← hl1]
      split
      · next hc =>
        exact ⟨by omega, ho.le_of_not (hPk _ hi) (hPk _ (by omega)) hc.2,
          fun _ => ho.le_refl (hPk _ (by omega)), Or.inr ⟨rfl, hc.1⟩⟩
      · next hc =>
        refine ⟨hi, ho.le_refl (hPk _ hi), ?_, Or.inl rfl⟩
        intro hlt
        by_contra hh
        exact hc ⟨hlt, by simpa [Le] using hh⟩
    obtain ⟨b1, b2, b3, b4⟩ := hb1
    have hb2 : l2 < s.length ∧ Le less (get s l1) (get s l2) ∧
        (2 * i + 2 < n → Le less (get s (2 * i + 2)) (get s l2)) ∧
        (l2 = l1 ∨ (l2 = 2 * i + 2 ∧ l2 < n)) := by
      rw [← hl2]
      split
      · next hc =>
        exact ⟨by omega, ho.le_of_not (hPk _ b1) (hPk _ (by omega)) hc.2,
          fun _ => ho.le_refl (hPk _ (by omega)), Or.inr ⟨rfl, hc.1⟩⟩
      · next hc =>
        refine ⟨b1, ho.le_refl (hPk _ b1), ?_, Or.inl rfl⟩
        intro hlt
        by_contra hh
        exact hc ⟨hlt, by simpa [Le] using hh⟩
    obtain ⟨d1, d2, d3, d4⟩ := hb2
    have hmax : ∀ k, 0 < k → k < n → (k - 1) / 2 = i → Le less (get s k) (get s l2) := by
      intro k hk0 hk hki
      have : k = 2 * i + 1 ∨ k = 2 * i + 2 := by omega
      rcases this with rfl | rfl
      · exact ho.le_trans (hPk _ (by omega)) (hPk _ b1) (hPk _ d1) (b3 hk) d2
      · exact d3 hk
    have hil : Le less (get s i) (get s l2) := ho.le_trans (hPk _ hi) (hPk _ b1) (hPk _ d1) b2 d2
    split
    · next hne =>
      have hl : i < l2 ∧ l2 < n ∧ (l2 - 1) / 2 = i := by
        rcases d4 with d4 | d4 <;> rcases b4 with b4 | b4 <;> omega
      have hget := fun k => get_swap s i l2 k hi d1
      have hp := swap_perm s i l2 hi d1
      apply ih (swap s i l2) l2 (by omega) (by simpa using d1) (by simpa using hn) (by omega) (perm_P hp hP)
      · intro k hk0 hk hlk hkj
        rw [hget, hget, if_neg (c := (k - 1) / 2 = l2) hkj]
        by_cases hk1 : k = l2
        · subst hk1
          rw [hl.2.2, if_pos rfl, if_pos rfl]
          exact hil
        · rw [if_neg hk1]
          by_cases hk2 : k = i
          · rw [if_pos hk2, if_neg (by omega)]
            have := h2 l2 (by omega) hl.2.1 hl.2.2 (by omega) (by rw [← hk2]; exact hlk)
            rw [hk2]; exact this
          · rw [if_neg hk2]
            by_cases hpi : (k - 1) / 2 = i
            · rw [if_pos hpi]; exact hmax k hk0 hk hpi
            · rw [if_neg hpi]; exact h1 k hk0 hk hlk hpi
      · intro k hk0 hk hkj _ _
        rw [hget, hget, hl.2.2, if_neg (by omega), if_neg (by omega), if_neg (by omega), if_pos rfl]
        have := h1 k hk0 hk (by omega) (by omega)
        rw [hkj] at this
        exact this
    · next hne =>
      have hle : l2 = i := by simpa using hne
      intro k hk0 hk hlk
      by_cases hki : (k - 1) / 2 = i
      · rw [hki]
        have := hmax k hk0 hk hki
        rw [hle] at this; exact this
      · exact h1 k hk0 hk hlk hki

theorem heapDownFrom_spec (less : α → α → Bool) (n : Nat) (k : Nat) : ∀ (s : List α), k ≤ n →
    n ≤ s.length →
    (heapDownFrom less n k s).Perm s ∧
    (∀ i, n ≤ i → get (heapDownFrom less n k s) i = get s i) ∧
    ∀ {P : α → Prop}, Ord less P → (∀ x ∈ s, P x) → IsMaxHeap less s k n →
      IsMaxHeap less (heapDownFrom less n k s) 0 n := by
  induction k with
  | zero => intro s _ _; exact ⟨List.Perm.refl _, fun _ _ => rfl, fun _ _ h => h⟩
  | succ k ih =>
    intro s hk hn
    unfold heapDownFrom
    obtain ⟨g1, g2⟩ := siftDown_perm less n n s k (by omega) hn
    obtain ⟨h1, h2, h3⟩ := ih (siftDown less n n s k) (by omega) (by rw [g1.length_eq]; exact hn)
    refine ⟨h1.trans g1, ?_, ?_⟩
    · intro i hi
      rw [h2 i hi, g2 i (Or.inl hi) (by omega)]
    · intro P ho hP hm
      apply h3 ho (perm_P g1 hP)
      apply siftDown_heap ho n k n s k (by omega) (by omega) hn le_rfl hP
      · intro j hj0 hj hlo hne
        exact hm j hj0 hj (by omega)
      · intro j hj0 hj hjk hk0 hlo
        omega

theorem buildMaxHeap_spec (less : α → α → Bool) (s : List α) (n : Nat) (hn : n ≤ s.length) :
    (buildMaxHeap less s n).Perm s ∧
    (∀ i, n ≤ i → get (buildMaxHeap less s n) i = get s i) ∧
    ∀ {P : α → Prop}, Ord less P → (∀ x ∈ s, P x) → IsMaxHeap less (buildMaxHeap less s n) 0 n := by
  obtain ⟨h1, h2, h3⟩ := heapDownFrom_spec less n (n / 2) s (by omega) hn
  refine ⟨h1, h2, ?_⟩
  intro P ho hP
  apply h3 ho hP
  intro k hk0 hk hlo
  omega

theorem maxHeap_root (ho : Ord less P) (s : List α) (n : Nat) (hn : n ≤ s.length) (hP : ∀ x ∈ s, P x)
    (hh : IsMaxHeap less s 0 n) : ∀ k, k < n → Le less (get s k) (get s 0) := by
  intro k
  induction k using Nat.strong_induction_on with
  | _ k ih =>
    intro hk
    by_cases h0 : k = 0
    · subst h0; exact ho.le_refl (get_P hP _ (by omega))
    · exact ho.le_trans (get_P hP _ (by omega)) (get_P hP _ (by omega)) (get_P hP _ (by omega))
        (hh k (by omega) hk (by omega)) (ih ((k - 1) / 2) (by omega) (by omega))

/-- Restoring a max-heap after its root was replaced. -/
theorem siftRoot_heap (ho : Ord less P) (s : List α) (n : Nat) (h0 : 0 < s.length) (hn : n ≤ s.length)
    (hP : ∀ x ∈ s, P x)
    (hh : ∀ k, 0 < k → k < n → (k - 1) / 2 ≠ 0 → Le less (get s k) (get s ((k - 1) / 2))) :
    IsMaxHeap less (siftDown less n n s 0) 0 n := by
  apply siftDown_heap ho n 0 n s 0 (by omega) h0 hn le_rfl hP
  · intro k hk0 hk _ hne; exact hh k hk0 hk hne
  · intro k _ _ _ h; omega

theorem extractLoop_spec (k : Nat) : ∀ (s : List α), k ≤ s.length →
    (extractLoop less k s).Perm s ∧
    (∀ i, k ≤ i → get (extractLoop less k s) i = get s i) ∧
    (Ord less P → (∀ x ∈ s, P x) → IsMaxHeap less s 0 k →
      (∀ i j, i < j → k ≤ j → j < s.length → Le less (get s i) (get s j)) →
      ∀ i j, i < j → j < s.length →
        Le less (get (extractLoop less k s) i) (get (extractLoop less k s) j)) := by
  induction k with
  | zero =>
    intro s _
    exact ⟨List.Perm.refl _, fun _ _ => rfl, fun _ _ _ h i j hij hj => h i j hij (by omega) hj⟩
  | succ k ih =>
    intro s hk
    unfold extractLoop
    have hsl : (swap s 0 k).length = s.length := by simp
    have hsp := swap_perm s 0 k (by omega) (by omega)
    have hget := fun i => get_swap s 0 k i (by omega) (by omega)
    obtain ⟨g1, g2⟩ := siftDown_perm less k k (swap s 0 k) 0 (by omega) (by omega)
    have g3 : ∀ i, k ≤ i → get (siftDown less k k (swap s 0 k) 0) i = get (swap s 0 k) i := by
      intro i hi
      by_cases hk0 : 0 < k
      · exact g2 i (Or.inl hi) hk0
      · have : k = 0 := by omega
        subst this; rfl
    obtain ⟨h1, h2, h3⟩ := ih (siftDown less k k (swap s 0 k) 0) (by rw [g1.length_eq]; omega)
    have hp : (siftDown less k k (swap s 0 k) 0).Perm s := g1.trans hsp
    refine ⟨h1.trans hp, ?_, ?_⟩
    · intro i hi
      rw [h2 i (by omega), g3 i (by omega), hget, if_neg (by omega), if_neg (by omega)]
    · intro ho hP hm hs
      have hlen := hp.length_eq
      rw [← hlen]
      apply h3 ho (perm_P hp hP)
      · apply siftRoot_heap ho _ _ (by omega) (by omega) (perm_P hsp hP)
        intro i hi0 hi hne
        rw [hget, hget, if_neg (by omega), if_neg (by omega), if_neg (by omega), if_neg (by omega)]
        exact hm i hi0 (by omega) (by omega)
      · intro i j hij hkj hj
        rw [hlen] at hj
        -- every element of the prefix was in the heap
        have hroot := maxHeap_root ho s (k + 1) hk hP hm
        have hj' : get (siftDown less k k (swap s 0 k) 0) j = get (swap s 0 k) j := g3 j hkj
        have hall : ∀ a, a ≤ k → Le less (get s a) (get (swap s 0 k) j) := by
          intro a ha
          rw [hget]
          by_cases hjk : j = k
          · rw [if_pos hjk]; exact hroot a (by omega)
          · rw [if_neg hjk, if_neg (by omega)]; exact hs a j (by omega) (by omega) hj
        rw [hj']
        by_cases hik : k ≤ i
        · rw [g3 i hik, hget i]
          by_cases hi2 : i = k
          · rw [if_pos hi2]; exact hall 0 (by omega)
          · rw [if_neg hi2, if_neg (by omega), hget, if_neg (by omega), if_neg (by omega)]
            exact hs i j hij (by omega) hj
        · -- `i < k`: the element at `i` is one of the first `k` of `swap s 0 k`
          have hmem : get (siftDown less k k (swap s 0 k) 0) i ∈ (swap s 0 k).take k := by
            have e1 : (siftDown less k k (swap s 0 k) 0).drop k = (swap s 0 k).drop k := by
              apply List.ext_getElem
              · simp [hlen]
              · intro a ha1 ha2
                have := g3 (k + a) (by omega)
                rw [get_lt _ _ (by simp at ha1; omega), get_lt _ _ (by simp at ha2 ⊢; omega)] at this
                simpa using this
            have e2 : ((siftDown less k k (swap s 0 k) 0).take k).Perm ((swap s 0 k).take k) := by
              have := g1
              rw [← List.take_append_drop k (siftDown less k k (swap s 0 k) 0),
                ← List.take_append_drop k (swap s 0 k)] at this
              rw [List.take_append_drop k (swap s 0 k), e1] at this
              conv at this => rhs; rw [← List.take_append_drop k (swap s 0 k)]
              exact (List.perm_append_right_iff _).1 this
            apply e2.mem_iff.1
            rw [← get_take _ k i (by omega)]
            exact get_mem _ _ (by simp; omega)
          obtain ⟨a, ha, hae⟩ := mem_get hmem
          simp only [List.length_take, swap_length] at ha
          rw [get_take _ _ _ (by omega), hget, if_neg (by omega)] at hae
          rw [← hae]
          split
          · exact hall k le_rfl
          · exact hall a (by omega)

end Srt
end Annoy
