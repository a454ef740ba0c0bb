import Verif.Proof.SteadyIeee
import Verif.Proof.FloatInt
/-!
Averages of quotients of small numbers, computed in `float64`.
-/
namespace Annoy
namespace Ieee

/-- A rounded number between 0 and `n` stays there. -/
theorem f64_upto {v : ℝ} {z n : Nat} (h : f64.Correct v z) (hn : n ≤ 2 ^ 53) (h0 : 0 ≤ v) (h1 : v ≤ n) :
    f64.Finite z ∧ 0 ≤ f64.real z ∧ f64.real z ≤ n ∧ |f64.real z - v| ≤ (n + 1) / 2 ^ 53 := by
  have hn' : (n : ℝ) ≤ 2 ^ 53 := by exact_mod_cast hn
  have hf : f64.Finite z := f64_finite h (le_huge (by
    rw [abs_of_nonneg h0]
    have : (2 : ℝ) ^ 53 ≤ 2 ^ 100 := by norm_num
    linarith))
  rcases h0.lt_or_eq with hv | hv
  · obtain ⟨b, hb⟩ := f64_holds_nat hn
    have h2 := h.between hf hv f64.value_zero hb h0 h1
    refine ⟨hf, h2.1, h2.2, ?_⟩
    by_cases hs : (2 : ℝ) ^ (-1022 : Int) ≤ v
    · have h3 := f64_near h hs hf
      refine h3.trans ?_
      gcongr
      linarith
    · push Not at hs
      have he : f64.value (2 ^ f64.mb) = 2 ^ (-1022 : Int) := by
        have := f64.value_eq (k := 0) (q := 2 ^ f64.mb) (by omega) (fun h => absurd rfl h)
        rw [Nat.zero_mul, Nat.zero_add] at this
        rw [this, show f64.emin = -1074 by decide, show f64.mb = 52 from rfl, show ((2 ^ 52 : Nat) : ℝ) = 2 ^ (52 : Int) by norm_num,
          ← zpow_add₀ (by norm_num)]
        rfl
      have h3 := h.between hf hv f64.value_zero he h0 hs.le
      have h4 : (2 : ℝ) ^ (-1022 : Int) ≤ 2 ^ (-54 : Int) := zpow_le_zpow_right₀ (by norm_num) (by norm_num)
      have h5 : (1 : ℝ) / 2 ^ 53 ≤ (n + 1) / 2 ^ 53 := by
        gcongr
        have : (0 : ℝ) ≤ n := Nat.cast_nonneg n
        linarith
      have h6 : (2 : ℝ) ^ (-54 : Int) ≤ 1 / 2 ^ 53 := by norm_num
      have h7 := h4.trans (h6.trans h5)
      generalize (2 : ℝ) ^ (-1022 : Int) = y at *
      rw [abs_le]
      constructor <;> linarith [h3.1, h3.2]
  · subst hv
    have := h.zero.1
    rw [this]
    refine ⟨hf, le_rfl, h1, ?_⟩
    rw [sub_zero, abs_zero]
    positivity

/-- The rate of `h` of `k`, as a `float64`. -/
def rate (k h : Nat) : Nat := f64.div (f64.ofNat h) (f64.ofNat k)

theorem rate_spec {k h : Nat} (hk : 0 < k) (hb : k ≤ 2 ^ 53) (hh : h ≤ k) :
    f64.Finite (rate k h) ∧ 0 ≤ f64.real (rate k h) ∧ f64.real (rate k h) ≤ 1 ∧ |f64.real (rate k h) - h / k| ≤ 2 / 2 ^ 53 ∧
    (h = k → f64.real (rate k h) = 1) := by
  obtain ⟨f1, r1⟩ := ofNat_exact (n := h) (by omega)
  obtain ⟨f2, r2⟩ := ofNat_exact hb
  have hk' : (0 : ℝ) < k := by exact_mod_cast hk
  have hc := f64.div_correct f64_ok f1 f2 (by rw [r2]; exact hk'.ne')
  rw [r1, r2] at hc
  have h0 : (0 : ℝ) ≤ h / k := by positivity
  have h1 : (h : ℝ) / k ≤ (1 : Nat) := by
    rw [div_le_iff₀ hk']
    push_cast
    rw [one_mul]
    exact_mod_cast hh
  obtain ⟨a, b, c, d⟩ := f64_upto hc (by norm_num) h0 h1
  refine ⟨a, b, by rw [Nat.cast_one] at c; exact c, by norm_num at d ⊢; exact d, ?_⟩
  rintro rfl
  have e : (h : ℝ) / h = 1 := div_self hk'.ne'
  have := (hc.exact (n := 1) (by norm_num) (by rw [e]; simp)).2
  exact this.trans e

/-- Adding up rates. -/
def addRates (k : Nat) (acc : Nat) (hs : List Nat) : Nat := hs.foldl (fun a h => f64.add a (rate k h)) acc

theorem addRates_spec {k : Nat} (hk : 0 < k) (hb : k ≤ 2 ^ 53) (hs : List Nat) : ∀ {m acc : Nat} {x e : ℝ}, (∀ h ∈ hs, h ≤ k) →
    m + hs.length ≤ 2 ^ 53 → f64.Finite acc → 0 ≤ f64.real acc → f64.real acc ≤ m → |f64.real acc - x| ≤ e →
    f64.Finite (addRates k acc hs) ∧ 0 ≤ f64.real (addRates k acc hs) ∧ f64.real (addRates k acc hs) ≤ m + hs.length ∧
    |f64.real (addRates k acc hs) - (x + (hs.map fun h : Nat => (h : ℝ) / k).sum)| ≤ e + hs.length * ((m + hs.length + 3) / 2 ^ 53) ∧
    (f64.real acc = m → (∀ h ∈ hs, h = k) → f64.real (addRates k acc hs) = m + hs.length) := by
  induction hs with
  | nil =>
    intro m acc x e _ _ h1 h2 h3 h4
    exact ⟨h1, h2, by simpa [addRates] using h3, by simpa [addRates] using h4, fun h _ => by simpa [addRates] using h⟩
  | cons h hs ih =>
    intro m acc x e hh hlen h1 h2 h3 h4
    obtain ⟨f1, r1, r2, r3, r4⟩ := rate_spec hk hb (hh h (by simp))
    have hc := f64.add_correct f64_ok h1 f1
    simp only [List.length_cons] at hlen ⊢
    obtain ⟨a1, a2, a3, a4⟩ := f64_upto (n := m + 1) hc (by omega) (by linarith) (by push_cast; linarith)
    have hd : |f64.real (f64.add acc (rate k h)) - (x + h / k)| ≤ e + (m + 4) / 2 ^ 53 := by
      push_cast at a4
      have e1 : ((m : ℝ) + 4) / 2 ^ 53 = (m + 1 + 1) / 2 ^ 53 + 2 / 2 ^ 53 := by rw [← add_div]; congr 1; ring
      rw [e1]
      rw [abs_le] at a4 h4 r3 ⊢
      constructor <;> linarith [a4.1, a4.2, h4.1, h4.2, r3.1, r3.2]
    obtain ⟨b1, b2, b3, b4, b5⟩ := ih (m := m + 1) (fun g hg => hh g (by simp [hg])) (by omega) a1 a2 (by exact_mod_cast a3) hd
    have hs0 : addRates k acc (h :: hs) = addRates k (f64.add acc (rate k h)) hs := rfl
    rw [hs0]
    refine ⟨b1, b2, by push_cast at b3 ⊢; linarith, ?_, fun hm hall => ?_⟩
    · simp only [List.map_cons, List.sum_cons]
      rw [← _root_.add_assoc]
      refine b4.trans ?_
      push_cast
      have hl : (0 : ℝ) ≤ hs.length := Nat.cast_nonneg _
      have e1 : e + (hs.length + 1) * ((m + (hs.length + 1) + 3) / 2 ^ 53) = e + (m + 4) / 2 ^ 53 + hs.length * ((m + 1 + hs.length + 3) / 2 ^ 53)
        + hs.length / 2 ^ 53 := by ring
      rw [e1]
      have : (0 : ℝ) ≤ hs.length / 2 ^ 53 := by positivity
      linarith
    · have hr := r4 (hall h (by simp))
      have := (hc.exact (n := m + 1) (by omega) (by rw [hm, hr]; push_cast; rw [abs_of_nonneg]; positivity)).2
      rw [hm, hr] at this
      have := b5 (by push_cast; exact this) fun g hg => hall g (by simp [hg])
      rw [this]
      push_cast
      ring

/-- An average of rates, computed like this, is between 0 and 1, exactly 1 if all are, and near the real average. -/
theorem average_spec {k : Nat} (hk : 0 < k) (hb : k ≤ 2 ^ 53) {hs : List Nat} (hne : hs ≠ []) (hlen : hs.length ≤ 2 ^ 53) (hh : ∀ h ∈ hs, h ≤ k) :
    f64.Finite (f64.div (addRates k 0 hs) (f64.ofNat hs.length)) ∧ 0 ≤ f64.real (f64.div (addRates k 0 hs) (f64.ofNat hs.length)) ∧
    f64.real (f64.div (addRates k 0 hs) (f64.ofNat hs.length)) ≤ 1 ∧
    |f64.real (f64.div (addRates k 0 hs) (f64.ofNat hs.length)) - (hs.map fun h : Nat => (h : ℝ) / k).sum / hs.length| ≤
      (hs.length + 5) / 2 ^ 53 ∧
    ((∀ h ∈ hs, h = k) → f64.real (f64.div (addRates k 0 hs) (f64.ofNat hs.length)) = 1) := by
  have hz : f64.Finite 0 ∧ f64.real 0 = 0 := by
    have := ofNat_exact (n := 0) (by norm_num)
    rw [ofNat_zero] at this
    simpa using this
  obtain ⟨a1, a2, a3, a4, a5⟩ := addRates_spec hk hb hs (m := 0) (acc := 0) (x := 0) (e := 0) hh (by omega) hz.1 hz.2.ge (by rw [hz.2]; simp)
    (by rw [hz.2]; simp)
  obtain ⟨f2, r2⟩ := ofNat_exact hlen
  have hpos : (0 : ℝ) < hs.length := by exact_mod_cast List.length_pos_iff.2 hne
  have hc := f64.div_correct f64_ok a1 f2 (by rw [r2]; exact hpos.ne')
  rw [r2] at hc
  have h1 : f64.real (addRates k 0 hs) / hs.length ≤ (1 : Nat) := by
    rw [div_le_iff₀ hpos]
    simpa using a3
  obtain ⟨b1, b2, b3, b4⟩ := f64_upto hc (by norm_num) (by positivity) h1
  refine ⟨b1, b2, by simpa using b3, ?_, fun hall => ?_⟩
  · have e1 : |f64.real (addRates k 0 hs) / hs.length - (hs.map fun h : Nat => (h : ℝ) / k).sum / hs.length| ≤ (hs.length + 3) / 2 ^ 53 := by
      rw [← sub_div, abs_div, abs_of_pos hpos, div_le_iff₀ hpos]
      rw [zero_add, zero_add] at a4
      refine a4.trans (le_of_eq ?_)
      push_cast
      ring
    have e2 : ((hs.length : ℝ) + 5) / 2 ^ 53 = (hs.length + 3) / 2 ^ 53 + ((1 : Nat) + 1) / 2 ^ 53 := by rw [← add_div]; congr 1; push_cast; ring
    rw [e2]
    rw [abs_le] at b4 e1 ⊢
    constructor <;> linarith [b4.1, b4.2, e1.1, e1.2]
  · have := a5 (by rw [hz.2]; simp) hall
    rw [this] at hc
    have e : (((0 : Nat) : ℝ) + hs.length) / hs.length = 1 := by rw [Nat.cast_zero, zero_add]; exact div_self hpos.ne'
    exact ((hc.exact (n := 1) (by norm_num) (by rw [e]; simp)).2).trans e

end Ieee
end Annoy
