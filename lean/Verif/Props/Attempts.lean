import Verif.Props.Separation
import Verif.Props.Kiss
/-!
# C117: how many hyperplanes are tried

`makeTree` (annoyindex.go:361-399) tries up to three hyperplanes and keeps the first that leaves less than 95 % of the items on one side.
Only when the third leaves more than 99 % on one side are the items divided at random.
-/
namespace Annoy
open Ieee

/-- A division which passes the first test of balance passes the second. -/
def Graded (c : Cfg) : Prop := ∀ a b, c.lt95 a b = true → c.le99 a b = true

theorem imbalance_graded (a b : Nat) (h : imbalanceLt95 a b = true) : imbalanceLe99 a b = true := by
  unfold imbalanceLt95 at h
  unfold imbalanceLe99
  have h99 : f64.lt 0x3fee666666666666 0x3fefae147ae147ae = true := by decide +kernel
  unfold Fmt.lt at h h99 ⊢
  simp only [Bool.and_eq_true, Bool.not_eq_true', decide_eq_true_eq, Bool.or_eq_true] at h h99 ⊢
  exact Or.inl ⟨⟨h.1.1, h99.1.2⟩, lt_trans h.2 h99.2⟩

theorem angular_graded {N : Num} {C : Codec N.V} {R : Rng} {sI : List Nat → List Nat}
    {sP : List (N.V × Nat) → List (N.V × Nat)} {sz f : Nat} : Graded (angularCfg N C R sI sP sz f) := imbalance_graded

theorem dot_graded {N : Num} {C : Codec N.V} {R : Rng} {sI : List Nat → List Nat}
    {sP : List (N.V × Nat) → List (N.V × Nat)} {sz f : Nat} : Graded (dotCfg N C R sI sP sz f) := imbalance_graded

/-- The two tests of balance of the indexes of the repository compare the share of the larger side with 0.95 and 0.99, up to a millionth; and a division with an empty side
never passes the second. -/
theorem C117_balance {c : Cfg} (h : Index32 c) (l r : Nat) (hb : l + r < 2 ^ 64) : Graded c ∧
    (1 ≤ l → 1 ≤ r → (max (l : ℝ) r / (l + r) < 0.949998 → c.lt95 l r = true) ∧
      (0.950002 < max (l : ℝ) r / (l + r) → c.lt95 l r = false) ∧
      (max (l : ℝ) r / (l + r) < 0.989998 → c.le99 l r = true) ∧
      (0.990002 < max (l : ℝ) r / (l + r) → c.le99 l r = false)) ∧
    (l = 0 ∨ r = 0 → c.lt95 l r = false ∧ c.le99 l r = false) := by
  have key : c.lt95 = imbalanceLt95 ∧ c.le99 = imbalanceLe99 := by cases h <;> exact ⟨rfl, rfl⟩
  obtain ⟨e1, e2⟩ := key
  have hg : Graded c := by unfold Graded; rw [e1, e2]; exact imbalance_graded
  refine ⟨hg, fun hl hr => by rw [e1, e2]; exact C77_share l r hl hr hb, fun h0 => ?_⟩
  have h99 : c.le99 l r = false := by
    rw [e2]
    rcases h0 with rfl | rfl
    · exact (C77_empty r).1
    · exact (C77_empty l).2
  refine ⟨?_, h99⟩
  cases e : c.lt95 l r with
  | false => rfl
  | true => exact absurd (hg _ _ e) (by rw [h99]; decide)

namespace Session
variable {c : Cfg} {numCPU : Nat} {pol : BuildPolicy} {adds : List (Nat × List c.N.V)} {trees workers : Int} {s s' : Idx c}

/-- **C117.**  Every inner node of every tree keeps the (cut) hyperplane that divides the items below it, and the items below its left child
are those sent left.  Either it is the first hyperplane of at most three that leaves less than 95 % on the larger side, or it is the third and leaves
at most 99 % there.  Or three hyperplanes were made for these items, each left 95 % or more on one side, the third more
than 99 %; then the stored vector is zero, and the random division leaves at most 99 %.  (The one exception is the root over a
lonely item.) -/
theorem C117_attempts (h : Session c numCPU pol adds trees workers s s')
    (hk : SplitsKept c numCPU pol (slotCount adds) trees workers) (hG : Graded c) :
    ∃ ts : List Tree, ts.map Tree.root = s'.roots ∧
      (∀ t ∈ ts, RootTree c.L s'.alloc.data s'.nItems (addedIds adds) t) ∧
      ∀ t ∈ ts, ∀ i l r, (i, l, r) ∈ t.splits →
        (∃ m ids, ids.Perm (l.items ++ r.items) ∧ KeptFrom c s'.alloc.data i m ∧
          c.le99 l.items.length r.items.length = true ∧
          ((∃ k m0, k < 3 ∧ Spoilt c s'.alloc.data s'.nItems ids k m0 ∧ CutFrom c s'.alloc.data s'.nItems ids m0 m ∧
              Divides c s'.alloc.data m l.items r.items ∧ (c.lt95 l.items.length r.items.length = false → k = 2)) ∨
            ∃ m1 m0 l0 rt0, Spoilt c s'.alloc.data s'.nItems ids 2 m1 ∧ CutFrom c s'.alloc.data s'.nItems ids m1 m0 ∧
              (l0 ++ rt0).Perm ids ∧ Divides c s'.alloc.data m0 l0 rt0 ∧
              c.lt95 l0.length rt0.length = false ∧ c.le99 l0.length rt0.length = false ∧
              Node.vec c.L c.C m 0 = List.replicate c.L.f c.N.zero)) ∨
        (∃ j k, l = .item j ∧ r = .hole k ∧ BlankFrom c.L s'.alloc.data i (3 * c.L.szIX)) := by
  obtain ⟨N0, B, hN, _⟩ := h.built
  obtain ⟨ts, h1, h2, -⟩ := B.sided (by
    rcases hk with hk | hk
    · exact Or.inr hk
    · exact Or.inl (hk.mono (by have := B.nNodes; omega)))
  refine ⟨ts, h1, fun t ht => B.nItems ▸ (h2 t ht).1, ?_⟩
  intro t ht i l r hp
  rw [B.nItems]
  rcases (h2 t ht).2.splits _ hp with ⟨m, ⟨e1, ids, e2, e3⟩, e4⟩ | ⟨⟨j, k, e1, e2⟩, e3⟩
  · refine Or.inl ⟨m, ids, e2, e4, e1, ?_⟩
    rcases e3 with ⟨k, m0, k1, k2, k3, -, k4, k5⟩ | ⟨m0, l0, rt0, ⟨k, m1, -, k2, k3, k4, k5, k6⟩, e5, rfl⟩
    · exact Or.inl ⟨k, m0, k1, k2, k3, k4, fun e => k5.resolve_left (by rw [e]; decide)⟩
    · have h95 : c.lt95 l0.length rt0.length = false := by
        cases e : c.lt95 l0.length rt0.length with
        | false => rfl
        | true => exact absurd (hG _ _ e) (by rw [e5]; decide)
      obtain rfl : k = 2 := k6.resolve_left (by rw [h95]; decide)
      exact Or.inr ⟨m1, m0, l0, rt0, k2, k3, k4, k5, h95, e5, Node.vec_setVec _ _ _ _ (by simp)⟩
  · exact Or.inr ⟨j, k, e1, e2, e3⟩

end Session

/-- C117: an index for which the hypotheses hold, and in which there is an inner node. -/
example : ∃ s s', Session (few32 16) 1 .single tallAdds 1 1 s s' ∧
    SplitsKept (few32 16) 1 .single (slotCount tallAdds) 1 1 ∧ Graded (few32 16) ∧ (few32 16).L.K < slotCount tallAdds := by
  obtain ⟨s, s', h, hk, _⟩ := C68_refuted
  exact ⟨s, s', h, hk, angular_graded, by decide +kernel⟩

/-- 18 to 1 ends the attempts, 98 to 2 only the third, 199 to 1 not even that. -/
example : (few32 16).lt95 18 1 = true ∧ (few32 16).lt95 98 2 = false ∧ (few32 16).le99 98 2 = true ∧ (few32 16).le99 199 1 = false := by
  decide +kernel

end Annoy
