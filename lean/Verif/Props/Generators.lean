import Verif.Proof.Total
/-!
# Random generators (C48) and the starting points of TwoMeans (C49)
-/
namespace Annoy

/-- A call on a generator. -/
inductive RngOp where
  | next
  | nextSide
  | nextIndex (n : Nat)
  | setSeed (s : Nat)
deriving DecidableEq

/-- Run calls on a generator; a panicking `NextIndex(0)` still has advanced the state
(random/kiss32random.go:62-64). -/
def runKiss32 (w : Nat) (r : Kiss32) : List RngOp → Kiss32
  | [] => r
  | .setSeed s :: h => runKiss32 w (r.setSeed s) h
  | _ :: h => runKiss32 w (Kiss32.next w r).2 h

def runKiss64 (r : Kiss64) : List RngOp → Kiss64
  | [] => r
  | .setSeed s :: h => runKiss64 (r.setSeed s) h
  | _ :: h => runKiss64 (Kiss64.next r).2 h

/-- Specification: the seed a generator has after a history: the argument of the last `SetSeed`. -/
def seedAfter (seed : Nat) : List RngOp → Nat
  | [] => seed
  | .setSeed s :: h => seedAfter s h
  | _ :: h => seedAfter seed h

/-- The first `k` numbers of a generator. -/
def draws {σ : Type} (next : σ → Nat × σ) (r : σ) : Nat → List Nat
  | 0 => []
  | k + 1 => (next r).1 :: draws next (next r).2 k

theorem runKiss32_seed (w : Nat) (h : List RngOp) (r : Kiss32) : (runKiss32 w r h).seed = seedAfter r.seed h := by
  induction h generalizing r with
  | nil => rfl
  | cons op h ih => cases op <;> exact ih _

theorem runKiss64_seed (h : List RngOp) (r : Kiss64) : (runKiss64 r h).seed = seedAfter r.seed h := by
  induction h generalizing r with
  | nil => rfl
  | cons op h ih => cases op <;> exact ih _

/-- **C48, range.**  `NextIndex(n)` of `Kiss32Random` is a number below `n` for every state, index width and `n > 0`;
`Next` is a value of the index type. -/
theorem C48_range32 (w : Nat) (r : Kiss32) (n : Nat) (hn : 0 < n) :
    (∃ v r', Kiss32.nextIndex w r n = .ok (v, r') ∧ v < n) ∧ (Kiss32.next w r).1 < 2 ^ w := by
  refine ⟨⟨(Kiss32.next w r).1 % n, (Kiss32.next w r).2, ?_, Nat.mod_lt _ hn⟩, ?_⟩
  · simp only [Kiss32.nextIndex]
    rw [if_neg (by omega)]
  · simp only [Kiss32.next]
    exact Nat.mod_lt _ (Nat.two_pow_pos w)

/-- **C48, range**, `Kiss64Random`. -/
theorem C48_range64 (r : Kiss64) (n : Nat) (hn : 0 < n) :
    (∃ v r', Kiss64.nextIndex r n = .ok (v, r') ∧ v < n) ∧ (Kiss64.next r).1 < 2 ^ 64 := by
  refine ⟨⟨(Kiss64.next r).1 % n, (Kiss64.next r).2, ?_, Nat.mod_lt _ hn⟩, ?_⟩
  · simp only [Kiss64.nextIndex]
    rw [if_neg (by omega)]
  · simp only [Kiss64.next]
    exact Nat.mod_lt _ (Nat.two_pow_pos 64)

/-- **C48, draws.**  Every draw takes one number of the stream: a side is left exactly if the number is odd, an index is the remainder; `SetSeed` and
`GetSeed` agree, and `GetSeed` of a new generator is its seed (unless it is 0). -/
theorem C48_draws32 (w : Nat) (r : Kiss32) :
    ((Kiss32.nextSide w r).2 = (Kiss32.next w r).2 ∧ ((Kiss32.nextSide w r).1 = .left ↔ (Kiss32.next w r).1 % 2 = 1)) ∧
    (∀ n, 0 < n → Kiss32.nextIndex w r n = .ok ((Kiss32.next w r).1 % n, (Kiss32.next w r).2)) ∧
    (∀ seed, (r.setSeed seed).getSeed = seed) ∧ (∀ seed, seed ≠ 0 → (Kiss32.new seed).getSeed = seed) ∧
    (Kiss32.next w r).2.getSeed = r.getSeed := by
  refine ⟨⟨rfl, ?_⟩, fun n hn => ?_, fun _ => rfl, fun seed h => ?_, rfl⟩
  · simp only [Kiss32.nextSide, Kiss32.nextBool, Nat.and_one_is_mod, beq_iff_eq]
    split <;> simp_all
  · simp only [Kiss32.nextIndex]
    rw [if_neg (by omega)]
  · simp [Kiss32.new, Kiss32.getSeed, h]

/-- **C48, draws**, `Kiss64Random`. -/
theorem C48_draws64 (r : Kiss64) :
    ((Kiss64.nextSide r).2 = (Kiss64.next r).2 ∧ ((Kiss64.nextSide r).1 = .left ↔ (Kiss64.next r).1 % 2 = 1)) ∧
    (∀ n, 0 < n → Kiss64.nextIndex r n = .ok ((Kiss64.next r).1 % n, (Kiss64.next r).2)) ∧
    (∀ seed, (r.setSeed seed).getSeed = seed) ∧ (∀ seed, seed ≠ 0 → (Kiss64.new seed).getSeed = seed) ∧
    (Kiss64.next r).2.getSeed = r.getSeed := by
  refine ⟨⟨rfl, ?_⟩, fun n hn => ?_, fun _ => rfl, fun seed h => ?_, rfl⟩
  · simp only [Kiss64.nextSide, Nat.and_one_is_mod, beq_iff_eq]
    split <;> simp_all
  · simp only [Kiss64.nextIndex]
    rw [if_neg (by omega)]
  · simp [Kiss64.new, Kiss64.getSeed, h]

/-- **C48, replay.**  After any history of draws and `SetSeed` calls on a new generator, the stream of
`CloneAndReset()` is the stream of a new generator with the seed of the last `SetSeed` (or the seed it was made
with). -/
theorem C48_replay32 (w seed : Nat) (h : List RngOp) (k : Nat) :
    draws (Kiss32.next w) (runKiss32 w (Kiss32.new seed) h).cloneAndReset k
      = draws (Kiss32.next w) (Kiss32.new (seedAfter seed h)) k := by
  congr 1
  rw [Kiss32.cloneAndReset, runKiss32_seed]
  have : ∀ s, Kiss32.new (seedAfter (Kiss32.new s).seed h) = Kiss32.new (seedAfter s h) := by
    intro s
    clear k
    induction h generalizing s with
    | nil =>
      simp only [seedAfter, Kiss32.new]
      by_cases h0 : s = 0
      · simp [h0]
      · simp [h0]
    | cons op h ih =>
      cases op with
      | setSeed t => rfl
      | next => exact ih s
      | nextSide => exact ih s
      | nextIndex n => exact ih s
  exact this seed

/-- **C48, replay**, `Kiss64Random`. -/
theorem C48_replay64 (seed : Nat) (h : List RngOp) (k : Nat) :
    draws Kiss64.next (runKiss64 (Kiss64.new seed) h).cloneAndReset k
      = draws Kiss64.next (Kiss64.new (seedAfter seed h)) k := by
  congr 1
  rw [Kiss64.cloneAndReset, runKiss64_seed]
  have : ∀ s, Kiss64.new (seedAfter (Kiss64.new s).seed h) = Kiss64.new (seedAfter s h) := by
    intro s
    clear k
    induction h generalizing s with
    | nil =>
      simp only [seedAfter, Kiss64.new]
      by_cases h0 : s = 0
      · simp [h0]
      · simp [h0]
    | cons op h ih =>
      cases op with
      | setSeed t => rfl
      | next => exact ih s
      | nextSide => exact ih s
      | nextIndex n => exact ih s
  exact this seed

/-- `SetSeed` itself does not restart the stream: after one draw, `SetSeed(s)` and a new generator with seed `s`
give different numbers. -/
theorem C48_setSeed_is_not_reset :
    draws (Kiss32.next 32) (runKiss32 32 (Kiss32.new 5) [.next, .setSeed 5]) 1
      ≠ draws (Kiss32.next 32) (Kiss32.new 5) 1 := by decide +kernel

/-! ### TwoMeans -/

/-- **C49.**  For two or more items the starting points of `TwoMeans` are two different positions of the item list,
for every generator whose `NextIndex` stays in range. -/
theorem C49_starts {R : Rng} (hR : R.InRange) (n : Nat) (hn : 2 ≤ n) (r : R.σ) :
    ∃ i j r', twoMeansPick n r = .ok (i, j, r') ∧ i < n ∧ j < n ∧ i ≠ j :=
  twoMeansPick_ok hR hn r

/-- Each of the `n * (n-1)` ordered pairs of different positions can be drawn: the shift `j++` does not lose any. -/
theorem C49_every_pair (n i j : Nat) (hi : i < n) (hj : j < n) (hij : i ≠ j) :
    ∃ (r : Nat → Nat), ∃ r', twoMeansPick (R := oracleRng) n r = .ok (i, j, r') := by
  refine ⟨fun k => if k = 0 then i else if j > i then j - 1 else j,
    fun k => if k + 2 = 0 then i else if j > i then j - 1 else j, ?_⟩
  have hn : n ≠ 0 := by omega
  have hn1 : n - 1 ≠ 0 := by omega
  simp only [twoMeansPick, oracleRng, if_neg hn, if_neg hn1, bind, Except.bind]
  have e1 : i % n = i := Nat.mod_eq_of_lt hi
  by_cases h : j > i
  · have e2 : (j - 1) % (n - 1) = j - 1 := Nat.mod_eq_of_lt (by omega)
    have e3 : i ≤ j - 1 := by omega
    have e4 : j - 1 + 1 = j := by omega
    simp [h, e1, e2, e3, e4]
  · have e2 : j % (n - 1) = j := Nat.mod_eq_of_lt (by omega)
    have e3 : ¬ i ≤ j := by omega
    simp [h, e1, e2, e3]

/-- **C49, no pair is preferred.**  Each of the `n * (n-1)` ordered pairs of different positions is drawn for exactly one of the `n * (n-1)` pairs of numbers
`NextIndex(n)`, `NextIndex(n-1)`. -/
theorem C49_once (n i j : Nat) (hi : i < n) (hj : j < n) (hij : i ≠ j) :
    ∃! p : Nat × Nat, p.1 < n ∧ p.2 < n - 1 ∧ ∀ r : Nat → Nat, r 0 = p.1 → r 1 = p.2 → ∃ r', twoMeansPick (R := oracleRng) n r = .ok (i, j, r') := by
  have hn : n ≠ 0 := by omega
  have hn1 : n - 1 ≠ 0 := by omega
  have key : ∀ (a b : Nat), a < n → b < n - 1 → ∀ r : Nat → Nat, r 0 = a → r 1 = b →
      twoMeansPick (R := oracleRng) n r = .ok (a, if b ≥ a then b + 1 else b, fun k => r (k + 2)) := by
    intro a b ha hb r h0 h1
    have e1 : a % n = a := Nat.mod_eq_of_lt ha
    have e2 : b % (n - 1) = b := Nat.mod_eq_of_lt hb
    simp only [twoMeansPick, oracleRng, if_neg hn, if_neg hn1, bind, Except.bind, h0, h1, Nat.zero_add, e1, e2]
  refine ⟨(i, if j > i then j - 1 else j), ⟨hi, ?_, fun r h0 h1 => ⟨fun k => r (k + 2), ?_⟩⟩, ?_⟩
  · dsimp only
    split <;> omega
  · rw [key _ _ hi (by split <;> omega) r h0 h1]
    congr 3
    split <;> split <;> omega
  · rintro ⟨a, b⟩ ⟨ha, hb, h⟩
    obtain ⟨r', h⟩ := h (fun k => if k = 0 then a else b) rfl rfl
    dsimp only at ha hb
    rw [key a b ha hb _ rfl rfl] at h
    injection h with h
    injection h with h1 h2
    injection h2 with h2 h3
    subst h1
    congr 1
    split at h2 <;> split <;> omega

section
variable {L : Layout} {N : Num} {R : Rng} (C : Codec N.V)

/-- **C49, every draw stays in range.**  On two or more items `TwoMeans` finishes its 200 rounds without an
out-of-range access, whatever the vectors, the distance and the generator state. -/
theorem C49_no_panic (hR : R.InRange) (mem : Bytes) (addrs : List Nat) (hn : 2 ≤ addrs.length) (r : R.σ)
    (cosine : Bool) (distance : Bytes → Nat → Bytes → Nat → N.V) (normalize initNode : Bytes → Nat → Bytes) :
    ∃ p q r', twoMeans (L := L) C mem addrs r cosine distance normalize initNode = .ok (p, q, r') := by
  obtain ⟨⟨p, q, r'⟩, h⟩ := twoMeans_ok (L := L) (C := C) hR mem hn r cosine distance normalize initNode
  exact ⟨p, q, r', h⟩

end

-- A concrete state: 7 items, a fresh generator.
example : (twoMeansPick (R := kiss32Rng 32) 7 (Kiss32.new 0)).toOption.map (fun x => (x.1, x.2.1)) = some (6, 5) := by
  decide +kernel
example : draws (Kiss32.next 32) (runKiss32 32 (Kiss32.new 0) [.next, .nextSide, .setSeed 42, .nextIndex 9]).cloneAndReset 2
    = draws (Kiss32.next 32) (Kiss32.new 42) 2 := C48_replay32 32 0 _ 2

end Annoy
