import Verif.Props.Kiss
import Verif.Props.Attempts
import Mathlib.Algebra.BigOperators.Fin
import Mathlib.Algebra.Order.Field.GeomSum
/-!
# C121: how many rounds the division by coin takes

The last loop of `makeTree` (annoyindex.go:390-409) throws a coin for every item and starts again if more than 99 % of the items are on one side.  The loop has
no bound of its own.  Here we count: among all sequences of coins, few lead to many rounds.
-/
namespace Annoy
open Ieee

instance : Fintype Side := ⟨{.left, .right}, fun s => by cases s <;> decide⟩

theorem Side.card : Fintype.card Side = 2 := rfl

/-- Number of coins that show left. -/
def lefts {m : Nat} (t : Fin m → Side) : Nat := (Finset.univ.filter fun i => t i = .left).card

/-- Number of coins that show right. -/
def rights {m : Nat} (t : Fin m → Side) : Nat := (Finset.univ.filter fun i => t i = .right).card

/-- The coins of a round leave too many items on one side. -/
def Rejects (c : Cfg) {m : Nat} (t : Fin m → Side) : Prop := c.le99 (lefts t) (rights t) = false

instance (c : Cfg) {m : Nat} : DecidablePred (Rejects c (m := m)) := fun _ => inferInstanceAs (Decidable (_ = _))

/-- The generator in state `r` is about to throw the coins `T`: `k` rounds of `m` coins. -/
def Throws (c : Cfg) {k m : Nat} (r : c.R.σ) (T : Fin k → Fin m → Side) : Prop :=
  ∀ (j : Fin k) (i : Fin m), (c.R.nextSide (sidesAfter c r (j * m + i))).1 = T j i

/-! ### the loop -/

theorem lefts_succ {m : Nat} (t : Fin (m + 1) → Side) : lefts t = (if t 0 = .left then 1 else 0) + lefts fun i => t i.succ := by
  unfold lefts
  rw [Finset.card_filter, Finset.card_filter, Fin.sum_univ_succ]

theorem rights_succ {m : Nat} (t : Fin (m + 1) → Side) : rights t = (if t 0 = .right then 1 else 0) + rights fun i => t i.succ := by
  unfold rights
  rw [Finset.card_filter, Finset.card_filter, Fin.sum_univ_succ]

/-- A round of coins. -/
theorem assignSides_coins {c : Cfg} (ids : List Nat) (r : c.R.σ) (t : Fin ids.length → Side)
    (h : ∀ i : Fin ids.length, (c.R.nextSide (sidesAfter c r i)).1 = t i) :
    ∃ l rt, Idx.assignSides (c := c) (fun _ r => .ok (c.R.nextSide r)) ids r = .ok (l, rt, sidesAfter c r ids.length) ∧
      l.length = lefts t ∧ rt.length = rights t := by
  induction ids generalizing r with
  | nil => exact ⟨[], [], rfl, rfl, rfl⟩
  | cons j ids ih =>
    obtain ⟨l, rt, h1, h2, h3⟩ := ih (c.R.nextSide r).2 (fun i => t i.succ) fun i => by
      rw [← h i.succ]
      rfl
    have h0 : (c.R.nextSide r).1 = t 0 := h 0
    have hs : ∀ sd, (c.R.nextSide r).1 = sd → (Except.ok (c.R.nextSide r) : Except Err _) = .ok (sd, (c.R.nextSide r).2) := by
      intro sd h; rw [← h]
    rw [lefts_succ, rights_succ]
    cases hb : t 0 with
    | left =>
      refine ⟨j :: l, rt, Conc.assignSides_left (hs .left (h0.trans hb)) h1, ?_, ?_⟩
      · simp [h2, hb]; omega
      · simp [h3, hb]
    | right =>
      refine ⟨l, j :: rt, Conc.assignSides_right (hs .right (h0.trans hb)) h1, ?_, ?_⟩
      · simp [h2, hb]
      · simp [h3, hb]; omega

/-- **C121**, the loop: it ends within `k` rounds exactly if one of the next `k` throws is not rejected. -/
theorem C121_rounds {c : Cfg} (ids : List Nat) {k : Nat} {r : c.R.σ} {T : Fin k → Fin ids.length → Side} (h : Throws c r T) (m : Bytes) {l rt : List Nat}
    (h0 : c.le99 l.length rt.length = false) :
    (∃ x, Idx.randomize c ids (k + 1) m l rt r = .ok x) ↔ ∃ j, ¬ Rejects c (T j) := by
  induction k generalizing r m l rt with
  | zero =>
    unfold Idx.randomize
    rw [h0, if_neg (by simp)]
    obtain ⟨⟨l1, rt1, r1⟩, h1⟩ := Idx.assignSides_ok (c := c) (side := fun _ r => .ok (c.R.nextSide r)) (ids := ids) (fun _ _ _ => ⟨_, rfl⟩) r
    simp only [bind, Except.bind, h1]
    constructor
    · rintro ⟨x, hx⟩
      cases hx
    · rintro ⟨j, -⟩
      exact j.elim0
  | succ k ih =>
    obtain ⟨l1, rt1, h1, h2, h3⟩ := assignSides_coins ids r (T 0) fun i => by
      have := h 0 i
      simpa using this
    unfold Idx.randomize
    rw [h0, if_neg (by simp)]
    simp only [bind, Except.bind, h1]
    cases hb : c.le99 l1.length rt1.length with
    | true =>
      refine ⟨fun _ => ⟨0, ?_⟩, fun _ => ?_⟩
      · unfold Rejects
        rw [← h2, ← h3, hb]
        decide
      · unfold Idx.randomize
        rw [if_pos hb]
        exact ⟨_, rfl⟩
    | false =>
      rw [ih (T := fun j => T j.succ) (fun j i => ?_) _ hb]
      · refine ⟨fun ⟨j, hj⟩ => ⟨j.succ, hj⟩, fun ⟨j, hj⟩ => ?_⟩
        cases j using Fin.cases with
        | zero =>
          exfalso
          apply hj
          unfold Rejects
          rw [← h2, ← h3, hb]
        | succ j => exact ⟨j, hj⟩
      · have := h j.succ i
        unfold sidesAfter at this ⊢
        rw [← Function.iterate_add_apply]
        dsimp only
        rw [← this]
        have e : (j : Nat) * ids.length + i + ids.length = j.succ * ids.length + i := by
          simp only [Fin.val_succ]
          ring
        rw [e]

/-! ### counting -/

/-- A coin as a number. -/
def Side.sign : Side → ℝ
  | .left => 1
  | .right => -1

/-- The mean of the square of a sum of coins. -/
theorem sum_sq_coins (m : Nat) : ∀ a : ℝ, ∑ t : Fin m → Side, (a + ∑ i, (t i).sign) ^ 2 = 2 ^ m * (a ^ 2 + m) := by
  induction m with
  | zero => intro a; simp
  | succ m ih =>
    intro a
    rw [← (Fin.consEquiv fun _ : Fin (m + 1) => Side).sum_comp, Fintype.sum_prod_type]
    simp only [Fin.consEquiv, Equiv.coe_fn_mk, Fin.sum_univ_succ, Fin.cons_zero, Fin.cons_succ]
    rw [show (Finset.univ : Finset Side) = {.left, .right} from rfl, Finset.sum_pair (by decide)]
    simp only [← add_assoc]
    rw [ih, ih]
    simp only [Side.sign]
    push_cast
    ring

theorem sum_sign {m : Nat} (t : Fin m → Side) : ∑ i, (t i).sign = (lefts t : ℝ) - rights t := by
  induction m with
  | zero => simp [lefts, rights]
  | succ m ih =>
    rw [Fin.sum_univ_succ, ih fun i => t i.succ, lefts_succ, rights_succ]
    cases t 0 <;> simp [Side.sign] <;> ring

theorem lefts_add_rights {m : Nat} (t : Fin m → Side) : lefts t + rights t = m := by
  induction m with
  | zero => rfl
  | succ m ih =>
    have := ih fun i => t i.succ
    rw [lefts_succ, rights_succ]
    cases t 0 <;> simp <;> omega

/-- Few throws are rejected. -/
theorem card_rejects {c : Cfg} (hc : c.le99 = imbalanceLe99) {m : Nat} (h0 : 0 < m) (hm : m < 2 ^ 64) :
    ((Finset.univ.filter fun t : Fin m → Side => Rejects c t).card : ℝ) ≤ 1.05 / m * 2 ^ m := by
  have h0' : (0 : ℝ) < m := by exact_mod_cast h0
  have key : ∀ t : Fin m → Side, Rejects c t → (0.979996 * m) ^ 2 ≤ (0 + ∑ i, (t i).sign) ^ 2 := by
    intro t ht
    rw [zero_add, sum_sign]
    have hs := lefts_add_rights t
    unfold Rejects at ht
    rw [hc] at ht
    generalize lefts t = l at ht hs ⊢
    generalize rights t = r at ht hs ⊢
    have hs' : (l : ℝ) + r = m := by exact_mod_cast hs
    rcases Nat.eq_zero_or_pos l with rfl | hl
    · have : (r : ℝ) = m := by simpa using hs'
      rw [this]
      simp only [Nat.cast_zero]
      nlinarith
    rcases Nat.eq_zero_or_pos r with rfl | hr
    · have : (l : ℝ) = m := by simpa using hs'
      rw [this]
      simp only [Nat.cast_zero]
      nlinarith
    have h1 : ¬ (max (l : ℝ) r / (l + r) < 0.989998) := fun h => by
      have := (C77_share l r hl hr (by omega)).2.2.1 h
      rw [ht] at this
      cases this
    rw [hs', not_lt, le_div_iff₀ h0'] at h1
    rcases max_cases (l : ℝ) r with ⟨e, -⟩ | ⟨e, -⟩ <;> rw [e] at h1
    · nlinarith
    · nlinarith
  have h1 : ((Finset.univ.filter fun t : Fin m → Side => Rejects c t).card : ℝ) * (0.979996 * m) ^ 2 ≤ 2 ^ m * m := by
    have := sum_sq_coins m 0
    rw [show (2 : ℝ) ^ m * (0 ^ 2 + m) = 2 ^ m * m by ring] at this
    rw [← this, ← nsmul_eq_mul, ← Finset.sum_const]
    calc _ ≤ ∑ t ∈ Finset.univ.filter (fun t : Fin m → Side => Rejects c t), (0 + ∑ i, (t i).sign) ^ 2 :=
          Finset.sum_le_sum fun t ht => key t (Finset.mem_filter.1 ht).2
      _ ≤ _ := Finset.sum_le_sum_of_subset_of_nonneg (Finset.filter_subset _ _) fun _ _ _ => sq_nonneg _
  have h2 : (0 : ℝ) < 2 ^ m := by positivity
  generalize ((Finset.univ.filter fun t : Fin m → Side => Rejects c t).card : ℝ) = x at h1 ⊢
  rw [div_mul_eq_mul_div, le_div_iff₀ h0']
  have h3 : x * 0.979996 ^ 2 * m * m ≤ 2 ^ m * m := by nlinarith
  have h4 : x * 0.979996 ^ 2 * m ≤ 2 ^ m := le_of_mul_le_mul_right h3 h0'
  nlinarith

/-- The share of the throws of `k` rounds, for `m` items, after which the loop has not ended. -/
noncomputable def unfinished (c : Cfg) (m k : Nat) : ℝ :=
  ((Finset.univ.filter fun T : Fin k → Fin m → Side => ∀ j, Rejects c (T j)).card : ℝ) / Fintype.card (Fin k → Fin m → Side)

theorem unfinished_pow (c : Cfg) (m k : Nat) :
    unfinished c m k = (((Finset.univ.filter fun t : Fin m → Side => Rejects c t).card : ℝ) / 2 ^ m) ^ k := by
  unfold unfinished
  have e : (Finset.univ.filter fun T : Fin k → Fin m → Side => ∀ j, Rejects c (T j)) =
      Fintype.piFinset fun _ : Fin k => Finset.univ.filter fun t : Fin m → Side => Rejects c t := by
    ext T
    simp
  rw [e, Fintype.card_piFinset]
  simp [Side.card, div_pow]

/-- **C121.**  `m` items are divided by coin.  Of all throws of `k` rounds, at most the share `(1.05 / m) ^ k` does not end the loop. -/
theorem C121_share {c : Cfg} (hc : c.le99 = imbalanceLe99) {m : Nat} (h0 : 0 < m) (hm : m < 2 ^ 64) (k : Nat) :
    unfinished c m k ≤ (1.05 / m) ^ k := by
  rw [unfinished_pow]
  refine pow_le_pow_left₀ (by positivity) ?_ k
  rw [div_le_iff₀ (by positivity)]
  exact card_rejects hc h0 hm

/-- Number of rounds the loop begins if the coins are `T`: a round begins if all throws before it were rejected. -/
def roundsBegun (c : Cfg) {N m : Nat} (T : Fin N → Fin m → Side) : Nat := (Finset.univ.filter fun k : Fin N => ∀ j, j < k → Rejects c (T j)).card

/-- The mean, over all throws of `N` rounds, of the number of rounds begun. -/
noncomputable def meanRounds (c : Cfg) (m N : Nat) : ℝ := (∑ T : Fin N → Fin m → Side, (roundsBegun c T : ℝ)) / Fintype.card (Fin N → Fin m → Side)

theorem card_begun (c : Cfg) (m N : Nat) (k : Fin N) :
    ((Finset.univ.filter fun T : Fin N → Fin m → Side => ∀ j, j < k → Rejects c (T j)).card : ℝ) = unfinished c m k * Fintype.card (Fin N → Fin m → Side) := by
  have e : (Finset.univ.filter fun T : Fin N → Fin m → Side => ∀ j, j < k → Rejects c (T j)) =
      Fintype.piFinset fun j : Fin N => if j < k then Finset.univ.filter (fun t : Fin m → Side => Rejects c t) else Finset.univ := by
    ext T
    simp only [Finset.mem_filter, Finset.mem_univ, true_and, Fintype.mem_piFinset]
    refine forall_congr' fun j => ?_
    split
    · simp [*]
    · simp [*]
  have e2 : ∀ j : Fin N, (if j < k then Finset.univ.filter (fun t : Fin m → Side => Rejects c t) else Finset.univ).card =
      if j < k then (Finset.univ.filter (fun t : Fin m → Side => Rejects c t)).card else 2 ^ m := by
    intro j
    split
    · rfl
    · simp [Side.card]
  have hk : (Finset.univ.filter fun j : Fin N => j < k).card = k := by
    rw [show (Finset.univ.filter fun j : Fin N => j < k) = Finset.Iio k by ext; simp]
    exact Fin.card_Iio k
  have hk' : (Finset.univ.filter fun j : Fin N => ¬ j < k).card = N - k := by
    have := Finset.card_filter_add_card_filter_not (s := (Finset.univ : Finset (Fin N))) (p := fun j => j < k)
    rw [hk, Finset.card_univ, Fintype.card_fin] at this
    omega
  rw [e, Fintype.card_piFinset, Finset.prod_congr rfl fun j _ => e2 j, Finset.prod_ite, Finset.prod_const, Finset.prod_const, hk, hk', unfinished_pow]
  simp only [Fintype.card_pi, Finset.prod_const, Finset.card_univ, Fintype.card_fin, Side.card]
  push_cast
  have : (2 : ℝ) ^ m ≠ 0 := by positivity
  rw [div_pow, div_mul_eq_mul_div, eq_div_iff (by positivity), mul_assoc, ← pow_add]
  congr 2
  have := k.2
  omega

theorem meanRounds_eq (c : Cfg) (m N : Nat) : meanRounds c m N = ∑ k ∈ Finset.range N, unfinished c m k := by
  unfold meanRounds
  have e : ∑ T : Fin N → Fin m → Side, (roundsBegun c T : ℝ) =
      ∑ k : Fin N, ((Finset.univ.filter fun T : Fin N → Fin m → Side => ∀ j, j < k → Rejects c (T j)).card : ℝ) := by
    unfold roundsBegun
    simp only [Finset.card_filter]
    push_cast
    exact Finset.sum_comm
  rw [e, Finset.sum_congr rfl fun k _ => card_begun c m N k, ← Finset.sum_mul, Finset.sum_range, mul_div_assoc, div_self, mul_one]
  simp [Side.card]

/-- **C121**, mean: with fair and independent coins the mean number of rounds is at most `m / (m - 1.05)`, however many rounds are looked at. -/
theorem C121_mean {c : Cfg} (hc : c.le99 = imbalanceLe99) {m : Nat} (h2 : 2 ≤ m) (hm : m < 2 ^ 64) (N : Nat) :
    meanRounds c m N ≤ m / (m - 1.05) := by
  have h2' : (2 : ℝ) ≤ m := by exact_mod_cast h2
  rw [meanRounds_eq]
  calc _ ≤ ∑ k ∈ Finset.range N, (1.05 / (m : ℝ)) ^ k := Finset.sum_le_sum fun k _ => C121_share hc (by omega) hm k
    _ ≤ m / (m - 1.05) := by
      have hx0 : (0 : ℝ) ≤ 1.05 / m := by positivity
      have hx : (1.05 : ℝ) / m < 1 := by rw [div_lt_one (by linarith)]; linarith
      have h := geom_sum_mul_neg (1.05 / (m : ℝ)) N
      have hp : (0 : ℝ) ≤ (1.05 / (m : ℝ)) ^ N := by positivity
      have e : (m : ℝ) / (m - 1.05) = 1 / (1 - 1.05 / m) := by field_simp
      rw [e, le_div_iff₀ (by linarith), h]
      linarith

/-- Every throw is possible: some stream of numbers makes it. -/
theorem throws_any {f k m : Nat} (T : Fin k → Fin m → Side) : ∃ r, Throws (oracle32 f) r T := by
  have after : ∀ (n : Nat) (r : Nat → Nat), sidesAfter (oracle32 f) r n = fun i => r (i + n) := by
    intro n
    induction n with
    | zero => intro r; rfl
    | succ n ih =>
      intro r
      exact ih fun i => r (i + 1)
  have coin : ∀ (g : Nat → Nat) (n : Nat), ((oracle32 f).R.nextSide (sidesAfter (oracle32 f) g n)).1 = if g n &&& 1 == 1 then .left else .right := by
    intro g n
    rw [after]
    show (if g (0 + n) &&& 1 == 1 then Side.left else Side.right) = _
    rw [Nat.zero_add]
  refine ⟨fun i => if h : i / m < k ∧ 0 < m then (if T ⟨i / m, h.1⟩ ⟨i % m, Nat.mod_lt _ h.2⟩ = .left then 1 else 0) else 0, fun j i => ?_⟩
  have hm : 0 < m := i.pos
  have h1 : ((j : Nat) * m + i) / m = j := by
    rw [Nat.add_comm, Nat.add_mul_div_right _ _ hm, Nat.div_eq_of_lt i.2, Nat.zero_add]
  have h2 : ((j : Nat) * m + i) % m = i := by
    rw [Nat.add_comm, Nat.add_mul_mod_self_right, Nat.mod_eq_of_lt i.2]
  rw [coin]
  simp only [h1, h2]
  rw [dif_pos ⟨j.2, hm⟩]
  cases T j i <;> rfl

/-- C121: ten items; all to the left in the first round, six of ten in the second: the loop takes two rounds, not one.  Of all throws of three rounds, less than 1 in
800 does not end the loop. -/
example : ∃ (r : Nat → Nat) (T : Fin 2 → Fin 10 → Side), Throws (oracle32 12) r T ∧ Rejects (oracle32 12) (T 0) ∧ ¬ Rejects (oracle32 12) (T 1) ∧
    (oracle32 12).le99 ([] : List Nat).length ([] : List Nat).length = false ∧
    (∃ x, Idx.randomize (oracle32 12) (List.range 10) 3 zeros [] [] r = .ok x) ∧ (oracle32 12).le99 = imbalanceLe99 ∧ unfinished (oracle32 12) 10 3 < 1 / 800 := by
  have hle : (oracle32 12).le99 = imbalanceLe99 := rfl
  let T : Fin 2 → Fin 10 → Side := fun j i => if j = 0 ∨ (i : Nat) < 6 then .left else .right
  obtain ⟨r, hr⟩ := throws_any (f := 12) T
  have h0 : (oracle32 12).le99 ([] : List Nat).length ([] : List Nat).length = false := by rw [hle]; exact (C77_empty 0).1
  have h1 : ¬ Rejects (oracle32 12) (T 1) := by decide +kernel
  refine ⟨r, T, hr, by decide +kernel, h1, h0, (C121_rounds (List.range 10) (T := T) hr zeros h0).2 ⟨1, h1⟩, hle, ?_⟩
  refine (C121_share hle (m := 10) (by decide) (by decide) 3).trans_lt ?_
  norm_num

end Annoy
