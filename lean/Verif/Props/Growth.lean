import Verif.Proof.FloatInt
import Verif.Model.Index
/-!
# The size a growing index asks for (C04)

`allocateSize` (index/annoyindex.go:476) multiplies by 1.5 in `float64`.  The model computes with integers; here is the
computation of the code, and the proof that both agree.
-/
namespace Annoy
open Ieee

/-- `TIX(float64(x) * reallocation_factor)` before the conversion to `TIX` wraps (index/annoyindex.go:13, 476). -/
def floatGrow (x : Nat) : Int := f64.floor (f64.mul (f64.ofNat x) 0x3ff8000000000000)

theorem real_15 : f64.Finite 0x3ff8000000000000 ∧ f64.real 0x3ff8000000000000 = 3 / 2 := by
  have hf : f64.Finite 0x3ff8000000000000 := by unfold Fmt.Finite; decide +kernel
  refine ⟨hf, ?_⟩
  rw [f64_real_eq (m := 6755399441055744) (e := -52) (by decide +kernel) hf]
  norm_num

/-- A `float64` result whose exact value is half an integer below `2^53`. -/
theorem Ieee.Fmt.Correct.exact_half {v : ℝ} {z : Nat} (h : f64.Correct v z) {n : Nat} (hn : n ≤ 2 ^ 53) (e : v = n / 2) :
    f64.Finite z ∧ f64.real z = v := by
  have h0 : 0 ≤ v := by rw [e]; positivity
  have hn' : (n : ℝ) ≤ 2 ^ 53 := by exact_mod_cast hn
  have hf : f64.Finite z := f64_finite h (le_huge (by
    rw [abs_of_nonneg h0, e]
    have : (2 : ℝ) ^ 53 ≤ 2 ^ 100 := by norm_num
    linarith))
  refine ⟨hf, ?_⟩
  by_cases hz : n = 0
  · exact (h.exact (n := 0) (by norm_num) (by rw [e, hz]; simp)).2
  have hn1 : (1 : ℝ) ≤ n := by exact_mod_cast Nat.one_le_iff_ne_zero.2 hz
  obtain ⟨_, ⟨b, hb, hm⟩, s1, s2⟩ := h
  obtain ⟨b', hb'⟩ := f64_holds_nat hn
  obtain ⟨k, q, rfl, hq, hk⟩ := f64.split_mag b'
  have hv := f64.value_eq hq.le hk
  have hk0 : k ≠ 0 := by
    intro h0
    subst h0
    rw [hb'] at hv
    have hq' : (q : ℝ) ≤ 2 * 2 ^ 52 := by exact_mod_cast hq.le
    have : (2 : ℝ) ^ (f64.emin + ((0 : Nat) : Int)) ≤ 2 ^ (-60 : Int) := zpow_le_zpow_right₀ (by norm_num) (by decide)
    have e60 : (2 : ℝ) ^ (-60 : Int) = 1 / 2 ^ 60 := by norm_num
    rw [e60] at this
    have : (q : ℝ) * 2 ^ (f64.emin + ((0 : Nat) : Int)) ≤ 2 * 2 ^ 52 * (1 / 2 ^ 60) :=
      mul_le_mul hq' this (two_zpow_pos _).le (by norm_num)
    rw [← hv] at this
    norm_num at this
    linarith
  obtain ⟨k, rfl⟩ : ∃ j, k = j + 1 := ⟨k - 1, by omega⟩
  have hq1 := hk hk0
  have hhalf : f64.value (k * 2 ^ f64.mb + q) = v := by
    rw [f64.value_eq hq.le (fun _ => hq1), e, ← hb', hv,
      show f64.emin + ((k + 1 : Nat) : Int) = (f64.emin + (k : Int)) + 1 by push_cast; ring, zpow_add_one₀ (by norm_num)]
    ring
  rw [abs_of_nonneg h0, ← hhalf] at hb
  have hbb := hb.unique (Fmt.RoundsTo.exact f64 _)
  subst hbb
  have hzz : f64.mag z = k * 2 ^ f64.mb + q := by
    unfold Fmt.Finite at hf
    rw [hm] at hf ⊢
    unfold Fmt.cap at hf ⊢
    split at hf
    · omega
    · next h => rw [if_neg h]
  rw [Fmt.real_of_nonneg (s2 (by rw [e]; linarith)), hzz, hhalf]

/-- **C04**, as computed: the size computed in `float64` is the size of the model, up to `3 * 10^15` nodes. -/
theorem C04_growth_float {x : Nat} (h : 3 * x ≤ 2 ^ 53) : floatGrow x = ((x * 3 / 2 : Nat) : Int) := by
  unfold floatGrow
  obtain ⟨f1, r1⟩ := ofNat_exact (n := x) (by omega)
  obtain ⟨f2, r2⟩ := real_15
  have hc := f64.mul_correct f64_ok f1 f2
  rw [r1, r2] at hc
  obtain ⟨f3, r3⟩ := hc.exact_half (n := 3 * x) h (by push_cast; ring)
  rw [floor_correct f3, r3]
  have : (x : ℝ) * (3 / 2) = ((3 * x : Nat) : ℝ) / ((2 : Nat) : ℝ) := by push_cast; ring
  rw [this, Int.floor_eq_iff]
  have h1 := Nat.div_mul_le_self (3 * x) 2
  have h2 := Nat.lt_div_mul_add (a := 3 * x) (b := 2) (by decide)
  rw [show x * 3 = 3 * x by ring]
  constructor
  · rw [le_div_iff₀ (by norm_num)]
    exact_mod_cast h1
  · rw [div_lt_iff₀ (by norm_num)]
    have : (3 * x : Nat) < (3 * x / 2 + 1) * 2 := by omega
    exact_mod_cast this

/-- With it `allocateSize` of the model is the one of the code. -/
theorem C04_allocateSize_float {c : Cfg} (s : Idx c) (numNodes : Nat) (h : 3 * c.L.wrap (s.nodesSize + 1) ≤ 2 ^ 53) :
    s.allocateSize numNodes =
      if numNodes > s.nodesSize then
        let newSize := max numNodes (c.L.wrap (floatGrow (c.L.wrap (s.nodesSize + 1))).toNat)
        { s with
          nodes := .build
          alloc := s.alloc.reallocate (c.L.wrap (newSize * c.L.nodeSize))
          nodesSize := newSize }
      else s := by
  rw [C04_growth_float h]
  rfl

/-- Seven nodes become twelve. -/
example : floatGrow 8 = 12 ∧ floatGrow 7 = 10 := by decide +kernel

/-- Beyond the bound the product is rounded: it is one more than the exact one. -/
example : floatGrow (2 ^ 52 + 5) = 6755399441055752 ∧ (2 ^ 52 + 5) * 3 / 2 = 6755399441055751 := by decide +kernel

end Annoy
