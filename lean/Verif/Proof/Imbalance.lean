import Verif.Model.Index
import Verif.Proof.IeeeError
/-!
What `splitImbalance` decides, in `float64` arithmetic.
-/
namespace Annoy
open Ieee

/-- `float64(n)` for `n > 0`. -/
theorem ofNat_correct (n : Nat) : f64.Correct (n : ℝ) (f64.ofNat n) := by
  have := f64.encode_exact f64_ok false n 0
  simpa [Fmt.ofNat] using this

theorem f64_real_eq {x : Nat} {m : Nat} {e : Int} (h : f64.decode x = .fin false m e) (hx : f64.Finite x) :
    f64.real x = m * 2 ^ e := by
  obtain ⟨m', e', h1, h2, _⟩ := f64.real_eq hx
  rw [h] at h1
  injection h1 with a b d
  rw [← a] at h2
  subst b d
  simpa using h2

theorem real_tiny : 0 < f64.real 0x3e112e0be826d695 ∧ f64.real 0x3e112e0be826d695 ≤ 1 / 1000 := by
  rw [f64_real_eq (m := 4835703278458517) (e := -82) (by decide +kernel) (by unfold Fmt.Finite; decide +kernel)]
  constructor <;> norm_num

theorem real_99 : f64.real 0x3fefae147ae147ae ≤ 0.991 ∧ 0.989 ≤ f64.real 0x3fefae147ae147ae := by
  rw [f64_real_eq (m := 8917127262193582) (e := -53) (by decide +kernel) (by unfold Fmt.Finite; decide +kernel)]
  constructor <;> norm_num

theorem real_one : f64.real f64.one = 1 := by
  rw [f64_real_eq (m := 4503599627370496) (e := -52) (by decide +kernel) (by unfold Fmt.Finite; decide +kernel)]
  norm_num

theorem finite_one : f64.Finite f64.one := by unfold Fmt.Finite; decide +kernel
theorem finite_tiny : f64.Finite 0x3e112e0be826d695 := by unfold Fmt.Finite; decide +kernel
theorem finite_99 : f64.Finite 0x3fefae147ae147ae := by unfold Fmt.Finite; decide +kernel

/-- The final comparison, for finite numbers. -/
theorem le99_iff {z : Nat} (hz : f64.Finite z) :
    (f64.lt z 0x3fefae147ae147ae || f64.eq z 0x3fefae147ae147ae) = true ↔ f64.real z ≤ f64.real 0x3fefae147ae147ae := by
  rw [Bool.or_eq_true, Fmt.lt_correct hz finite_99, Fmt.eq_correct hz finite_99, le_iff_lt_or_eq]

/-- Non-negative numbers, infinity included. -/
def Pos64 (x : Nat) : Prop := x < 2 * f64.signBit ∧ f64.isNeg x = false ∧ f64.mag x ≤ f64.infBits

theorem Pos64.cases {x : Nat} (h : Pos64 x) : x = f64.infBits ∨ (f64.Finite x ∧ x = f64.mag x ∧ 0 ≤ f64.real x) := by
  obtain ⟨h1, h2, h3⟩ := h
  have e : x = f64.mag x := by
    have := f64.signed_mag h1
    rw [h2] at this
    exact this.symm
  rcases Nat.eq_or_lt_of_le h3 with h | h
  · left; rw [e, h]
  · exact Or.inr ⟨h, e, by rw [Fmt.real_of_nonneg h2]; exact f64.value_nonneg _⟩

theorem Ieee.Fmt.Correct.pos {v : ℝ} {z : Nat} (h : f64.Correct v z) (hv : 0 < v) : Pos64 z := by
  obtain ⟨h1, ⟨b, _, hm⟩, _, hs⟩ := h
  refine ⟨h1, hs hv, ?_⟩
  rw [hm]
  unfold Fmt.cap
  split <;> omega

theorem ofNat_zero : f64.ofNat 0 = 0 := by decide +kernel

theorem ofNat_pos {n : Nat} (hn : 0 < n) : Pos64 (f64.ofNat n) :=
  (ofNat_correct n).pos (by exact_mod_cast hn)

/-- Adding `1e-9` to something that is not negative gives something positive. -/
theorem add_tiny {x : Nat} (hx : f64.Finite x) (h0 : 0 ≤ f64.real x) :
    Pos64 (f64.add x 0x3e112e0be826d695) ∧ f64.add x 0x3e112e0be826d695 ≠ 0 := by
  have hc := f64.add_correct f64_ok hx finite_tiny
  have ht := real_tiny.1
  refine ⟨hc.pos (by linarith), ?_⟩
  intro h
  obtain ⟨_, ⟨b, hb, hm⟩, _, _⟩ := hc
  rw [h] at hm
  rw [abs_of_pos (by linarith)] at hb
  have e : f64.value 0x3e112e0be826d695 = f64.real 0x3e112e0be826d695 := by
    rw [Fmt.real_of_nonneg (by decide +kernel)]
    congr 1
  have := (Fmt.RoundsTo.exact f64 0x3e112e0be826d695).mono hb (by rw [e]; linarith)
  have h0 : f64.mag 0 = 0 := by decide +kernel
  rw [h0] at hm
  have hi : f64.infBits ≠ 0 := by decide +kernel
  unfold Fmt.cap at hm
  split at hm
  · exact hi hm.symm
  · omega

/-- Nothing divided by something is nothing. -/
theorem zero_div_pos {d : Nat} (hd : Pos64 d) (h0 : d ≠ 0) : f64.div 0 d = 0 := by
  rcases hd.cases with rfl | ⟨h1, h2, _⟩
  · decide +kernel
  · rw [f64.zero_div f64_ok (by omega) h1 (by decide +kernel), hd.2.1]
    decide +kernel

/-- With an empty left side the imbalance is one. -/
theorem splitImbalance_left (r : Nat) : splitImbalance 0 r = f64.one := by
  unfold splitImbalance
  dsimp only
  rw [ofNat_zero]
  have key : ∀ d, Pos64 d → d ≠ 0 → f64.maxOf (f64.div 0 d) (f64.sub f64.one (f64.div 0 d)) = f64.one := by
    intro d h1 h2
    rw [zero_div_pos h1 h2]
    decide +kernel
  by_cases h : r = 0
  · subst h
    decide +kernel
  · rcases (ofNat_pos (n := r) (by omega)).cases with h1 | ⟨h1, h2, h3⟩
    · rw [h1]
      decide +kernel
    · have e : f64.add 0 (f64.ofNat r) = f64.ofNat r := by
        by_cases h0 : f64.ofNat r = 0
        · rw [h0]; decide +kernel
        · exact f64.zero_add f64_ok (ofNat_pos (by omega)).1 (by omega) h1 (by decide +kernel)
      rw [e]
      obtain ⟨a, b⟩ := add_tiny h1 h3
      exact key _ a b

theorem two_pow_le_one : (2 : ℝ) ^ (-1022 : Int) ≤ 1 / 4 := by
  have h : (2 : ℝ) ^ (-1022 : Int) ≤ 2 ^ (-2 : Int) := zpow_le_zpow_right₀ (by norm_num) (by norm_num)
  have : (2 : ℝ) ^ (-2 : Int) = 1 / 4 := by norm_num
  rw [this] at h; exact h

theorem le_huge {x : ℝ} (h : x ≤ 2 ^ 100) : x ≤ 2 ^ (1000 : Int) := by
  have h2 : (2 : ℝ) ^ (100 : Int) ≤ 2 ^ (1000 : Int) := zpow_le_zpow_right₀ (by norm_num) (by norm_num)
  have : (2 : ℝ) ^ (100 : Int) = 2 ^ 100 := by norm_cast
  rw [this] at h2; exact h.trans h2

/-- `f` and `1 - f` and the larger of them, for `f` about as large as one. -/
theorem max_one_sub {f : Nat} (hf : f64.Finite f) (h0 : 0 ≤ f64.real f) (h1 : f64.real f ≤ 2) :
    f64.Finite (f64.maxOf f (f64.sub f64.one f)) ∧
    f64.real f ≤ f64.real (f64.maxOf f (f64.sub f64.one f)) ∧
    (0.1 ≤ f64.real f → f64.real f ≤ 0.9 → f64.real (f64.maxOf f (f64.sub f64.one f)) ≤ 0.95) := by
  have hc := f64.sub_correct f64_ok finite_one hf
  rw [real_one] at hc
  have hg : f64.Finite (f64.sub f64.one f) := f64_finite hc (le_huge (by
    rw [abs_le]; constructor <;> linarith))
  obtain ⟨m1, m2⟩ := Fmt.maxOf_correct hf hg
  refine ⟨m1, by rw [m2]; exact le_max_left _ _, ?_⟩
  intro h2 h3
  rw [m2]
  have := two_pow_le_one
  have hn := f64_near hc (by
    have h : (2 : ℝ) ^ (-1022 : Int) ≤ 2 ^ (-4 : Int) := zpow_le_zpow_right₀ (by norm_num) (by norm_num)
    have e : (2 : ℝ) ^ (-4 : Int) = 1 / 16 := by norm_num
    rw [e] at h
    linarith) hg
  have h4 := (abs_le.1 hn).2
  apply max_le
  · linarith
  · have : (1 - f64.real f) / 2 ^ 53 ≤ 0.01 := by
      rw [div_le_iff₀ (by positivity)]
      have : (1 : ℝ) ≤ 0.01 * 2 ^ 53 := by norm_num
      linarith
    linarith

/-- With an empty right side the test `<= 0.99` fails. -/
theorem splitImbalance_right {l : Nat} (hl : 0 < l) : imbalanceLe99 l 0 = false := by
  unfold imbalanceLe99 splitImbalance
  dsimp only
  rw [ofNat_zero]
  have hp := ofNat_pos hl
  have hc := ofNat_correct l
  rcases hp.cases with h1 | ⟨h1, h2, h3⟩
  · rw [h1]; decide +kernel
  · have hle : (1 : ℝ) ≤ f64.real (f64.ofNat l) := by
      have hl1 : (1 : ℝ) ≤ (l : ℝ) := by exact_mod_cast hl
      obtain ⟨_, ⟨b, hb, hm⟩, _, _⟩ := hc
      rw [abs_of_nonneg (by linarith)] at hb
      have e : f64.value f64.one = 1 := by
        have := real_one
        rw [Fmt.real_of_nonneg (by decide +kernel)] at this
        exact this
      have hle := (Fmt.RoundsTo.exact f64 f64.one).mono hb (by rw [e]; exact hl1)
      rw [Fmt.real_of_nonneg hp.2.1, ← e]
      apply f64.value_strictMono.monotone
      have hi : f64.one ≤ f64.infBits := by decide +kernel
      rw [hm]
      unfold Fmt.cap
      split <;> omega
    have hne : f64.mag (f64.ofNat l) ≠ 0 := by
      intro h
      rw [Fmt.real_of_nonneg hp.2.1, h, f64.value_zero] at hle
      linarith
    rw [f64.add_zero f64_ok hp.1 (by omega) h1 (by decide +kernel)]
    obtain ⟨a1, a2⟩ := add_tiny h1 h3
    have hd := f64.add_correct f64_ok h1 finite_tiny
    set d := f64.add (f64.ofNat l) 0x3e112e0be826d695 with hdd
    set x := f64.real (f64.ofNat l) with hx
    rcases a1.cases with e | ⟨b1, b2, b3⟩
    · rw [e]
      have e2 : f64.div (f64.ofNat l) f64.infBits = 0 := by
        obtain ⟨m, k, q, _⟩ := f64.decode_value h1
        unfold Fmt.div
        rw [q, show f64.decode f64.infBits = .inf false by decide +kernel]
        dsimp only
        rw [hp.2.1]
        decide +kernel
      rw [e2]
      decide +kernel
    · obtain ⟨t1, t2⟩ := real_tiny
      have hq := two_pow_le_one
      have hn := abs_le.1 (f64_near hd (by linarith) b1)
      set y := f64.real d with hy
      set t := f64.real 0x3e112e0be826d695 with ht
      have hs : (x + t) / 2 ^ 53 ≤ 0.001 * (x + t) := by
        rw [div_le_iff₀ (by positivity)]
        have : (1 : ℝ) ≤ 0.001 * 2 ^ 53 := by norm_num
        nlinarith
      have hy1 : y ≤ 1.003 * x := by nlinarith [hn.2]
      have hy2 : 0.998 * x ≤ y := by nlinarith [hn.1]
      have hy0 : 0 < y := by linarith
      have hf := f64.div_correct f64_ok h1 b1 hy0.ne'
      have hq1 : 0.996 ≤ x / y := by rw [le_div_iff₀ hy0]; linarith
      have hq2 : x / y ≤ 1.003 := by rw [div_le_iff₀ hy0]; linarith
      rw [← hx] at hf
      have ff : f64.Finite (f64.div (f64.ofNat l) d) := f64_finite hf (le_huge (by
        rw [abs_le]; constructor <;> linarith))
      have hn2 := abs_le.1 (f64_near hf (by linarith) ff)
      have hs2 : x / y / 2 ^ 53 ≤ 0.001 := by
        rw [div_le_iff₀ (by positivity)]
        have : (1.003 : ℝ) ≤ 0.001 * 2 ^ 53 := by norm_num
        linarith
      obtain ⟨m1, m2, _⟩ := max_one_sub ff (by linarith [hn2.1]) (by linarith [hn2.2])
      rw [Bool.eq_false_iff]
      intro hcon
      have := (le99_iff m1).1 hcon
      have := real_99.1
      linarith [hn2.1]

/-- Balanced enough sides are not empty. -/
theorem imbalanceLe99_pos (l r : Nat) (h : imbalanceLe99 l r = true) : 0 < l ∧ 0 < r := by
  constructor
  · by_contra h0
    have : l = 0 := by omega
    subst this
    unfold imbalanceLe99 at h
    rw [splitImbalance_left] at h
    revert h
    decide +kernel
  · by_contra h0
    have : r = 0 := by omega
    subst this
    by_cases hl : l = 0
    · subst hl; revert h; decide +kernel
    · rw [splitImbalance_right (by omega)] at h
      cases h

theorem ofNat_near {n : Nat} (hn : 0 < n) (hb : n < 2 ^ 64) : f64.Finite (f64.ofNat n) ∧
    0.999 * (n : ℝ) ≤ f64.real (f64.ofNat n) ∧ f64.real (f64.ofNat n) ≤ 1.001 * (n : ℝ) := by
  have hc := ofNat_correct n
  have h1 : (1 : ℝ) ≤ (n : ℝ) := by exact_mod_cast hn
  have h2 : (n : ℝ) ≤ 2 ^ 64 := by exact_mod_cast hb.le
  have hf : f64.Finite (f64.ofNat n) := f64_finite hc (le_huge (by
    rw [abs_of_nonneg (by linarith)]
    have : (2 : ℝ) ^ 64 ≤ 2 ^ 100 := by norm_num
    linarith))
  have hn := abs_le.1 (f64_near hc (by have := two_pow_le_one; linarith) hf)
  have hs : (n : ℝ) / 2 ^ 53 ≤ 0.001 * n := by
    rw [div_le_iff₀ (by positivity)]
    have : (1 : ℝ) ≤ 0.001 * 2 ^ 53 := by norm_num
    nlinarith
  exact ⟨hf, by linarith [hn.1], by linarith [hn.2]⟩

/-- Sides that differ by at most one item pass the test `<= 0.99`. -/
theorem imbalanceLe99_near {l r : Nat} (hl : 1 ≤ l) (hr : 1 ≤ r) (h1 : l ≤ r + 1) (h2 : r ≤ l + 1) (hb : l + r < 2 ^ 64) :
    imbalanceLe99 l r = true := by
  obtain ⟨f1, x1, x2⟩ := ofNat_near (n := l) hl (by omega)
  obtain ⟨f2, y1, y2⟩ := ofNat_near (n := r) hr (by omega)
  have hl' : (1 : ℝ) ≤ l := by exact_mod_cast hl
  have hr' : (1 : ℝ) ≤ r := by exact_mod_cast hr
  have h1' : (l : ℝ) ≤ r + 1 := by exact_mod_cast h1
  have h2' : (r : ℝ) ≤ l + 1 := by exact_mod_cast h2
  have hb' : (l : ℝ) + r ≤ 2 ^ 64 := by exact_mod_cast hb.le
  have hq := two_pow_le_one
  have hbig : (2 : ℝ) ^ 64 * 4 ≤ 2 ^ 100 := by norm_num
  unfold imbalanceLe99 splitImbalance
  dsimp only
  have ha := f64.add_correct f64_ok f1 f2
  set ls := f64.ofNat l
  set rs := f64.ofNat r
  set x := f64.real ls
  set y := f64.real rs
  have small : ∀ v : ℝ, 0 ≤ v → v / 2 ^ 53 ≤ 0.001 * v := by
    intro v hv
    rw [div_le_iff₀ (by positivity)]
    have : (1 : ℝ) ≤ 0.001 * 2 ^ 53 := by norm_num
    nlinarith
  have fa : f64.Finite (f64.add ls rs) := f64_finite ha (le_huge (by
    rw [abs_of_nonneg (by linarith)]; linarith))
  have na := abs_le.1 (f64_near ha (by linarith) fa)
  have sa := small (x + y) (by linarith)
  obtain ⟨t1, t2⟩ := real_tiny
  have hd := f64.add_correct f64_ok fa finite_tiny
  set a := f64.real (f64.add ls rs)
  set t := f64.real 0x3e112e0be826d695
  have a1 : 0.998 * ((l : ℝ) + r) ≤ a := by linarith [na.1]
  have a2 : a ≤ 1.003 * ((l : ℝ) + r) := by linarith [na.2]
  have fd : f64.Finite (f64.add (f64.add ls rs) 0x3e112e0be826d695) := f64_finite hd (le_huge (by
    rw [abs_of_nonneg (by linarith)]; linarith))
  have nd := abs_le.1 (f64_near hd (by linarith) fd)
  have sd := small (a + t) (by linarith)
  set d := f64.real (f64.add (f64.add ls rs) 0x3e112e0be826d695)
  have d1 : 0.99 * ((l : ℝ) + r) ≤ d := by linarith [nd.1]
  have d2 : d ≤ 1.01 * ((l : ℝ) + r) := by linarith [nd.2]
  have d0 : 0 < d := by linarith
  have hf := f64.div_correct f64_ok f1 fd d0.ne'
  have q1 : 0.3 ≤ x / d := by rw [le_div_iff₀ d0]; linarith
  have q2 : x / d ≤ 0.7 := by rw [div_le_iff₀ d0]; linarith
  have ff : f64.Finite (f64.div ls (f64.add (f64.add ls rs) 0x3e112e0be826d695)) := f64_finite hf (le_huge (by
    rw [abs_le]; constructor <;> linarith))
  have nf := abs_le.1 (f64_near hf (by linarith) ff)
  have sf := small (x / d) (by linarith)
  obtain ⟨m1, _, m3⟩ := max_one_sub ff (by linarith [nf.1]) (by linarith [nf.2])
  rw [le99_iff m1]
  have := real_99.2
  linarith [m3 (by linarith [nf.1]) (by linarith [nf.2])]

end Annoy
