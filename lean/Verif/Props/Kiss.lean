import Verif.Props.Finish
import Verif.Proof.KissBalance
import Verif.Spec.Kiss
/-!
# The default random generator: Build always finishes (C76), what splits are accepted (C77), KISS (C78), seeds (C79), period (C80)
-/
namespace Annoy
open Ieee

/-! ### Build finishes -/

/-- The indexes of the repository with `uint32` item numbers and the default generator: either distance, `float32` or `float64` vectors of
length `f`. -/
inductive Index32 : Cfg → Prop
  | angular32 {f : Nat} : 0 < f → 3 * 4 + 4 + f * 4 < 2 ^ 32 → Index32 (angular32 4 f)
  | angular64 {f : Nat} : 0 < f → 3 * 4 + 8 + f * 8 < 2 ^ 32 → Index32 (angular64 4 f)
  | dot32 {f : Nat} : 0 < f → 3 * 4 + 8 + f * 4 < 2 ^ 32 → Index32 (dot32 4 f)
  | dot64 {f : Nat} : 0 < f → 3 * 4 + 16 + f * 8 < 2 ^ 32 → Index32 (dot64 4 f)

theorem Index32.wf {c : Cfg} (h : Index32 c) : c.WF := by
  cases h with
  | angular32 _ h => exact angular32_wf (Or.inl rfl) h
  | angular64 _ h => exact angular64_wf (Or.inl rfl) h
  | dot32 _ h => exact dot32_wf (Or.inl rfl) h
  | dot64 _ h => exact dot64_wf (Or.inl rfl) h

theorem Index32.total {c : Cfg} (h : Index32 c) : Conc.Total c := by
  cases h with
  | angular32 h _ => exact Conc.angular_total (kiss32_inRange _) h
  | angular64 h _ => exact Conc.angular_total (kiss32_inRange _) h
  | dot32 h _ => exact Conc.dot_total (kiss32_inRange _) h
  | dot64 h _ => exact Conc.dot_total (kiss32_inRange _) h

theorem Index32.balanced_within {c : Cfg} (h : Index32 c) (ids : List Nat) (r : c.R.σ) (h2 : 2 ≤ ids.length) (hlt : ids.length < 2 ^ 32) :
    ∃ k ≤ 776, (38 ≤ ids.length → k = 1) ∧
      c.le99 (drawSides c ids (k + 1) r).1.length (drawSides c ids (k + 1) r).2.1.length = true := by
  cases h with
  | angular32 => exact kiss32_balanced_within rfl rfl (by show 2 ^ (8 * 4) ≤ 2 ^ 64; decide) ids r h2 hlt
  | angular64 => exact kiss32_balanced_within rfl rfl (by show 2 ^ (8 * 4) ≤ 2 ^ 64; decide) ids r h2 hlt
  | dot32 => exact kiss32_balanced_within rfl rfl (by show 2 ^ (8 * 4) ≤ 2 ^ 64; decide) ids r h2 hlt
  | dot64 => exact kiss32_balanced_within rfl rfl (by show 2 ^ (8 * 4) ≤ 2 ^ 64; decide) ids r h2 hlt

theorem Index32.balanced {c : Cfg} (h : Index32 c) : EventuallyBalanced c := by
  cases h with
  | angular32 => exact kiss32_balanced rfl rfl (by show 2 ^ (8 * 4) ≤ 2 ^ 64; decide)
  | angular64 => exact kiss32_balanced rfl rfl (by show 2 ^ (8 * 4) ≤ 2 ^ 64; decide)
  | dot32 => exact kiss32_balanced rfl rfl (by show 2 ^ (8 * 4) ≤ 2 ^ 64; decide)
  | dot64 => exact kiss32_balanced rfl rfl (by show 2 ^ (8 * 4) ≤ 2 ^ 64; decide)

/-- **C76, rounds.**  Whatever the state of the default generator, the loop that draws random sides for a list of two or more items ends after
at most 777 rounds, and after at most two if there are 38 or more items. -/
theorem C76_rounds {c : Cfg} (h : Index32 c) (ids : List Nat) (h2 : 2 ≤ ids.length) (hlt : ids.length < 2 ^ 32) (m : Bytes)
    (l rt : List Nat) (r : c.R.σ) :
    (∃ x, Idx.randomize c ids 778 m l rt r = .ok x) ∧ (38 ≤ ids.length → ∃ x, Idx.randomize c ids 3 m l rt r = .ok x) := by
  obtain ⟨k, h1, h3, h4⟩ := h.balanced_within ids r h2 hlt
  obtain ⟨x, hx⟩ := Idx.randomize_within h4 m l rt
  refine ⟨⟨x, Idx.randomize_mono hx _ (by omega)⟩, fun h5 => ?_⟩
  rw [h3 h5] at hx
  exact ⟨x, hx⟩

/-- **C76.**  With `uint32` item numbers and the default generator in any state, whatever items have been added, `Build` with one worker ends, and
with the number of trees asked for: for `T ≥ 0` exactly `T`, for `-1` the smallest number for which there are twice as many nodes as item slots (root copies not counted). -/
theorem C76_build {c : Cfg} (h : Index32 c) (numCPU : Nat) (adds : List (Nat × List c.N.V)) (hl : LegalAdds c adds) (r : c.R.σ)
    (hint : Nat) (trees workers : Int) (hf : c.L.Fits (Idx.buildBound (slotCount adds) trees)) :
    ∃ s s', (Idx.new c r hint).addAll adds = .ok s ∧ Session c numCPU .single adds trees workers s s' ∧
      (0 ≤ trees → s'.roots.length = trees.toNat) ∧
      (trees = -1 → 2 * s'.nItems + s'.roots.length ≤ s'.nNodes ∧
        s.Builds numCPU s'.roots.length workers .single s' ∧
        ∀ T : Nat, T < s'.roots.length → ∀ s1, s.Builds numCPU T workers .single s1 →
          s1.nNodes < 2 * s1.nItems + s1.roots.length) :=
  C10_single h.wf h.total h.balanced numCPU adds hl r hint trees workers hf

/-- Twenty items of length 12 and the generator as it is after `NewKiss32Random(0)`. -/
example : ∃ s s', Session (angular32 4 12) 1 .single (longAdds 20) (-1) 1 s s' ∧
    2 * s'.nItems + s'.roots.length ≤ s'.nNodes := by
  obtain ⟨s, s', _, h, _, h1⟩ := C76_build (.angular32 (f := 12) (by decide) (by decide)) 1 (longAdds 20)
    (legalAdds_of (by decide +kernel)) (Kiss32.new 0) 0 (-1) 1 (by decide +kernel)
  exact ⟨s, s', h, (h1 rfl).1⟩

/-- Rounds may be one-sided: in this state of the generator five items all go to the right, and a second round is drawn. -/
example : (drawSides (angular32 4 2) [0, 1, 2, 3, 4] 1 (⟨0, 0, 0, 0, 0⟩ : Kiss32)).1 = [] ∧
    (drawSides (angular32 4 2) [0, 1, 2, 3, 4] 2 (⟨0, 0, 0, 0, 0⟩ : Kiss32)).1 = [2, 3, 4] := by decide +kernel

/-! ### which splits are accepted -/

/-- **C77.**  The tests `splitImbalance < 0.95` and `splitImbalance <= 0.99` of `makeTree`, computed in `float64`, decide by the share of the larger
side: up to a millionth it is compared with 0.95 and 0.99. -/
theorem C77_share (l r : Nat) (hl : 1 ≤ l) (hr : 1 ≤ r) (hb : l + r < 2 ^ 64) :
    (max (l : ℝ) r / (l + r) < 0.949998 → imbalanceLt95 l r = true) ∧
    (0.950002 < max (l : ℝ) r / (l + r) → imbalanceLt95 l r = false) ∧
    (max (l : ℝ) r / (l + r) < 0.989998 → imbalanceLe99 l r = true) ∧
    (0.990002 < max (l : ℝ) r / (l + r) → imbalanceLe99 l r = false) := by
  obtain ⟨h1, h2⟩ := splitImbalance_share hl hr hb
  obtain ⟨h3, h4⟩ := abs_le.1 h2
  obtain ⟨a1, a2⟩ := real_95
  obtain ⟨b1, b2⟩ := real_99'
  unfold largerShare at h3 h4
  unfold imbalanceLt95 imbalanceLe99
  refine ⟨?_, ?_, ?_, ?_⟩
  · intro h
    rw [Fmt.lt_correct h1 finite_95]
    linarith
  · intro h
    rw [← Bool.not_eq_true, Fmt.lt_correct h1 finite_95]
    linarith
  · intro h
    rw [le99_iff h1]
    linarith
  · intro h
    rw [← Bool.not_eq_true, le99_iff h1]
    linarith

/-- An empty side is never accepted by the second test. -/
theorem C77_empty (n : Nat) : imbalanceLe99 0 n = false ∧ imbalanceLe99 n 0 = false := by
  constructor
  · cases h : imbalanceLe99 0 n with
    | false => rfl
    | true => exact absurd (imbalanceLe99_pos _ _ h).1 (by omega)
  · cases h : imbalanceLe99 n 0 with
    | false => rfl
    | true => exact absurd (imbalanceLe99_pos _ _ h).2 (by omega)

/-- 18 to 1 is accepted at once, 96 to 4 only when sides are random, 199 to 1 never. -/
example : imbalanceLt95 18 1 = true ∧ imbalanceLt95 96 4 = false ∧ imbalanceLe99 96 4 = true ∧ imbalanceLe99 199 1 = false := by
  decide +kernel

end Annoy
