import Verif.Model.GoRandom
import Mathlib.Data.Int.CardIntervalMod
/-!
# `GoRandom` (C93)
-/
namespace Annoy
open Source

/-- A source keeps its contract: `Int63` is a number below `2^63`. -/
def Source.InRange (S : Source) : Prop := ∀ s, (S.int63 s).1 < 2 ^ 63

/-- A call on a `GoRandom`. -/
inductive GoOp where
  | next
  | nextBool
  | nextSide
  | nextIndex (n : Nat)
  | setSeed (s : Nat)
deriving DecidableEq

/-- What a user sees of one call, and the generator afterwards. -/
def GoRandom.call {S : Source} (fuel : Nat) (r : GoRandom S) : GoOp → Except Err (Nat × GoRandom S)
  | .next => r.next fuel
  | .nextBool => do
    let (b, r) ← r.nextBool fuel
    .ok (if b then 1 else 0, r)
  | .nextSide => do
    let (b, r) ← r.nextSide fuel
    .ok (if b = .left then 1 else 0, r)
  | .nextIndex n => r.nextIndex fuel n
  | .setSeed s => .ok (0, r.setSeed s)

/-- The values of a history of calls. -/
def GoRandom.trace {S : Source} (fuel : Nat) (r : GoRandom S) : List GoOp → List (Except Err Nat)
  | [] => []
  | o :: os =>
    match r.call fuel o with
    | .ok (v, r) => .ok v :: r.trace fuel os
    | .error e => [.error e]

/-! ### Range and fairness -/

theorem keep_lt {top n v i : Nat} (hn : 0 < n) (h : keep top n v = some i) : i < n := by
  unfold keep at h
  split at h
  · rename_i h0
    obtain ⟨k, rfl⟩ := (Nat.and_sub_one_eq_zero_iff_isPowerOfTwo hn.ne').1 h0
    cases h
    rw [Nat.and_two_pow_sub_one_eq_mod]
    exact Nat.mod_lt _ hn
  · split at h
    · cases h
    · cases h
      exact Nat.mod_lt _ hn

theorem loop_result {S : Source} {d : S.σ → Nat × S.σ} {top n : Nat} {fuel : Nat} {s s' : S.σ} {i : Nat} (hn : 0 < n)
    (h : S.loop d top n fuel s = .ok (i, s')) : i < n := by
  induction fuel generalizing s with
  | zero => cases h
  | succ fuel ih =>
    unfold Source.loop at h
    split at h
    · rename_i v hv
      cases h
      exact keep_lt hn hv
    · exact ih h

/-- **C93, range.**  For every source: `NextIndex(n)` is below `n` whenever it returns, `Next` is below `2^31 - 1`, and `NextIndex(0)` panics. -/
theorem C93_range {S : Source} (fuel : Nat) (r : GoRandom S) :
    (∀ n v r', r.nextIndex fuel n = .ok (v, r') → v < n) ∧ (∀ v r', r.next fuel = .ok (v, r') → v < 2 ^ 31 - 1) ∧
    ∃ msg, r.nextIndex fuel 0 = .error (.panic msg) := by
  have key : ∀ n v r', r.draw fuel n = .ok (v, r') → v < n := by
    intro n v r' h
    unfold GoRandom.draw at h
    split at h
    · rename_i v' s' e
      cases h
      unfold Source.intn at e
      split at e
      · cases e
      · rename_i h0
        split at e
        · exact loop_result (by omega) e
        · exact loop_result (by omega) e
    · cases h
  exact ⟨fun n v r' h => key n v r' h, fun v r' h => key _ v r' h, "invalid argument to Intn", rfl⟩

theorem count_mod {b n i : Nat} (hi : i < n) (hb : n ∣ b) : ((Finset.range b).filter (fun v => v % n = i)).card = b / n := by
  have h := Nat.count_modEq_card b (r := n) (by omega) i
  rw [Nat.mod_eq_zero_of_dvd hb, if_neg (by omega), Nat.add_zero, Nat.count_eq_card_filter_range] at h
  rw [← h]
  congr 1
  ext v
  simp [Nat.ModEq, Nat.mod_eq_of_lt hi]

/-- **C93, fairness.**  Of the `2^31` (for `n < 2^31`; otherwise `2^63`) values of one draw, the same number gives each index below `n`; the others are
drawn again.  (`Kiss32Random.NextIndex`, a plain remainder, is not fair in this sense.) -/
theorem C93_fair (n i : Nat) (hi : i < n) :
    (n ≤ 2 ^ 31 - 1 → ((Finset.range (2 ^ 31)).filter (fun v => keep (2 ^ 31) n v = some i)).card = 2 ^ 31 / n) ∧
    (n ≤ 2 ^ 32 → ((Finset.range (2 ^ 63)).filter (fun v => keep (2 ^ 63) n v = some i)).card = 2 ^ 63 / n) := by
  have key : ∀ b, n ≤ 2 ^ b → ((Finset.range (2 ^ b)).filter (fun v => keep (2 ^ b) n v = some i)).card = 2 ^ b / n := by
    intro b hb
    by_cases h0 : n &&& (n - 1) = 0
    · obtain ⟨k, rfl⟩ := (Nat.and_sub_one_eq_zero_iff_isPowerOfTwo (by omega)).1 h0
      rw [← count_mod hi (pow_dvd_pow 2 ((Nat.pow_le_pow_iff_right (by omega)).1 hb))]
      congr 1
      ext v
      simp [keep, h0, Nat.and_two_pow_sub_one_eq_mod]
    · have h1 : 2 ^ b / n = (2 ^ b - 2 ^ b % n) / n := by
        rw [← Nat.eq_sub_of_add_eq (Nat.div_add_mod (2 ^ b) n), Nat.mul_div_cancel_left _ (by omega)]
      rw [h1, ← count_mod hi (Nat.dvd_sub_mod _)]
      congr 1
      ext v
      have h2 : 2 ^ b % n < n := Nat.mod_lt _ (by omega)
      simp only [keep, h0, if_false, Finset.mem_filter, Finset.mem_range]
      constructor
      · rintro ⟨h3, h4⟩
        split at h4
        · cases h4
        · refine ⟨by omega, by simpa using h4⟩
      · rintro ⟨h3, h4⟩
        refine ⟨by omega, ?_⟩
        rw [if_neg (by omega), h4]
  exact ⟨fun h => key 31 (by omega), fun h => key 63 (by omega)⟩

/-- **C93, progress.**  A draw returns as soon as the source gives 0 (or any other kept value): with fuel for `k + 1` draws, if draw number `k` is kept. -/
theorem C93_returns {S : Source} (d : S.σ → Nat × S.σ) (top n : Nat) (k : Nat) (s : S.σ)
    (h : (keep top n (d ((fun s => (d s).2)^[k] s)).1).isSome) : ∃ v s', S.loop d top n (k + 1) s = .ok (v, s') := by
  induction k generalizing s with
  | zero =>
    obtain ⟨v, hv⟩ := Option.isSome_iff_exists.1 h
    exact ⟨v, _, by simp only [Source.loop]; rw [show keep top n (d s).1 = some v from hv]⟩
  | succ k ih =>
    cases hk : keep top n (d s).1 with
    | some v => exact ⟨v, _, by rw [Source.loop]; simp only [hk]; rfl⟩
    | none =>
      rw [Source.loop]
      simp only [hk]
      exact ih (d s).2 (by simpa [Function.iterate_succ_apply] using h)

/-- The source after `k` draws. -/
def Source.after (S : Source) (k : Nat) (s : S.σ) : S.σ := (fun s => (S.int63 s).2)^[k] s

theorem keep_some {top n v i : Nat} (hn : 0 < n) (hv : v < top) (hp : ∃ b, top = 2 ^ b) (hle : n ≤ top) (h : keep top n v = some i) :
    i = v % n ∧ v < top / n * n := by
  obtain ⟨b, rfl⟩ := hp
  have h2 := Nat.div_add_mod' (2 ^ b) n
  unfold keep at h
  split at h
  · rename_i h0
    obtain ⟨k, rfl⟩ := (Nat.and_sub_one_eq_zero_iff_isPowerOfTwo hn.ne').1 h0
    cases h
    refine ⟨Nat.and_two_pow_sub_one_eq_mod .., ?_⟩
    rw [Nat.div_mul_cancel (pow_dvd_pow 2 ((Nat.pow_le_pow_iff_right (by omega)).1 hle))]
    exact hv
  · split at h
    · cases h
    · cases h
      have h3 := Nat.mod_lt (2 ^ b) hn
      exact ⟨rfl, by omega⟩

theorem keep_none {top n v : Nat} (h : keep top n v = none) : top / n * n ≤ v := by
  have h2 := Nat.div_add_mod' top n
  unfold keep at h
  split at h
  · cases h
  · split at h
    · omega
    · cases h

theorem loop_draws {S : Source} {d : S.σ → Nat × S.σ} {g : Nat → Nat} (hd : ∀ s, d s = (g (S.int63 s).1, (S.int63 s).2)) {top n : Nat}
    (hn : 0 < n) (hp : ∃ b, top = 2 ^ b) (hle : n ≤ top) (hg : ∀ s, g (S.int63 s).1 < top) {fuel : Nat} {s s' : S.σ} {i : Nat}
    (h : S.loop d top n fuel s = .ok (i, s')) :
    ∃ k < fuel, s' = S.after (k + 1) s ∧ i = g (S.int63 (S.after k s)).1 % n ∧ g (S.int63 (S.after k s)).1 < top / n * n ∧
      ∀ j < k, top / n * n ≤ g (S.int63 (S.after j s)).1 := by
  induction fuel generalizing s with
  | zero => cases h
  | succ fuel ih =>
    unfold Source.loop at h
    rw [hd] at h
    dsimp only at h
    split at h
    · rename_i v hv
      cases h
      obtain ⟨h1, h2⟩ := keep_some hn (hg s) hp hle hv
      exact ⟨0, by omega, rfl, h1, h2, fun j hj => absurd hj (by omega)⟩
    · rename_i hv
      obtain ⟨k, h1, h2, h3, h4, h5⟩ := ih h
      refine ⟨k + 1, by omega, h2, h3, h4, fun j hj => ?_⟩
      cases j with
      | zero => exact keep_none hv
      | succ j => exact h5 j (by omega)

/-- **C93, what is drawn.**  For every source of numbers below `2^63`: if `NextIndex(n)` returns `v`, then for some `k` the source was asked `k + 1` times, `v`
is the remainder by `n` of its last number (for `n < 2^31` of the upper 31 bits of that number), that number is below the greatest multiple of
`n`, and all numbers before were not.  `NextBool` is `NextIndex(2) == 1`, `NextSide` is left exactly if `NextBool` is true, and `Next` is
`NextIndex(2^31 - 1)`.  No draw changes `GetSeed`. -/
theorem C93_draws {S : Source} (hS : S.InRange) (fuel : Nat) (r : GoRandom S) :
    (∀ n v r', n < 2 ^ 32 → r.nextIndex fuel n = .ok (v, r') → ∃ k < fuel,
      let x := fun j => if n < 2 ^ 31 then (S.int63 (S.after j r.rng)).1 / 2 ^ 32 else (S.int63 (S.after j r.rng)).1
      let limit := if n < 2 ^ 31 then 2 ^ 31 / n * n else 2 ^ 63 / n * n
      r'.rng = S.after (k + 1) r.rng ∧ r'.getSeed = r.getSeed ∧ v = x k % n ∧ x k < limit ∧ ∀ j < k, limit ≤ x j) ∧
    (∀ b r', r.nextBool fuel = .ok (b, r') ↔ ∃ v, r.nextIndex fuel 2 = .ok (v, r') ∧ (b = true ↔ v = 1)) ∧
    (∀ d r', r.nextSide fuel = .ok (d, r') ↔ ∃ b, r.nextBool fuel = .ok (b, r') ∧ d = if b then .left else .right) ∧
    r.next fuel = r.nextIndex fuel (2 ^ 31 - 1) := by
  refine ⟨?_, ?_, ?_, rfl⟩
  · intro n v r' hn h
    unfold GoRandom.nextIndex GoRandom.draw at h
    split at h
    · rename_i v' s' e
      cases h
      unfold Source.intn at e
      split at e
      · cases e
      · rename_i h0
        split at e
        · rename_i h1
          have hlt : n < 2 ^ 31 := by omega
          obtain ⟨k, h2, h3, h4, h5, h6⟩ := loop_draws (g := fun x => x / 2 ^ 32)
            (fun s => by simp only [Source.int31, Nat.shiftRight_eq_div_pow]) (by omega) ⟨31, rfl⟩ (by omega)
            (fun s => by have := hS s; omega) e
          refine ⟨k, h2, ?_⟩
          simp only [if_pos hlt]
          exact ⟨h3, rfl, h4, h5, h6⟩
        · rename_i h1
          have hlt : ¬ n < 2 ^ 31 := by omega
          obtain ⟨k, h2, h3, h4, h5, h6⟩ := loop_draws (g := fun x => x) (fun s => rfl) (by omega) ⟨63, rfl⟩ (by omega)
            (fun s => hS s) e
          refine ⟨k, h2, ?_⟩
          simp only [if_neg hlt]
          exact ⟨h3, rfl, h4, h5, h6⟩
    · cases h
  · intro b r'
    unfold GoRandom.nextBool GoRandom.nextIndex
    cases r.draw fuel 2 with
    | error e => simp
    | ok p =>
      obtain ⟨v, q⟩ := p
      constructor
      · intro h
        cases h
        exact ⟨v, rfl, by simp⟩
      · rintro ⟨v', h, hb⟩
        cases h
        have hv : (v == 1) = b := by rw [Bool.eq_iff_iff, hb]; simp
        exact congrArg (fun b => Except.ok (b, r')) hv
  · intro d r'
    unfold GoRandom.nextSide
    cases r.nextBool fuel with
    | error e => simp
    | ok p =>
      obtain ⟨b, q⟩ := p
      constructor
      · intro h
        cases h
        exact ⟨b, rfl, rfl⟩
      · rintro ⟨b', h, hb⟩
        cases h
        rw [hb]

/-! ### Reproducibility -/

theorem call_rng {S : Source} (fuel : Nat) {r r' : GoRandom S} (h : r.rng = r'.rng) (o : GoOp) :
    (∃ e, r.call fuel o = .error e ∧ r'.call fuel o = .error e) ∨
    ∃ v q q', r.call fuel o = .ok (v, q) ∧ r'.call fuel o = .ok (v, q') ∧ q.rng = q'.rng := by
  obtain ⟨a, b⟩ := r
  obtain ⟨a', b'⟩ := r'
  cases h
  have key : ∀ n, (∃ e, GoRandom.draw fuel (⟨a, b⟩ : GoRandom S) n = .error e ∧ GoRandom.draw fuel (⟨a, b'⟩ : GoRandom S) n = .error e) ∨
      ∃ v q q', GoRandom.draw fuel (⟨a, b⟩ : GoRandom S) n = .ok (v, q) ∧ GoRandom.draw fuel (⟨a, b'⟩ : GoRandom S) n = .ok (v, q') ∧ q.rng = q'.rng := by
    intro n
    simp only [GoRandom.draw]
    cases S.intn fuel a n with
    | error e => exact Or.inl ⟨e, rfl, rfl⟩
    | ok p => exact Or.inr ⟨p.1, ⟨p.2, b⟩, ⟨p.2, b'⟩, rfl, rfl, rfl⟩
  cases o with
  | next => exact key _
  | nextIndex n => exact key _
  | setSeed s => exact Or.inr ⟨0, _, _, rfl, rfl, rfl⟩
  | nextBool =>
    rcases key 2 with ⟨e, h1, h2⟩ | ⟨v, q, q', h1, h2, h3⟩
    · exact Or.inl ⟨e, by simp only [GoRandom.call, GoRandom.nextBool, h1]; rfl, by simp only [GoRandom.call, GoRandom.nextBool, h2]; rfl⟩
    · exact Or.inr ⟨_, q, q', by simp only [GoRandom.call, GoRandom.nextBool, h1]; rfl, by simp only [GoRandom.call, GoRandom.nextBool, h2]; rfl, h3⟩
  | nextSide =>
    rcases key 2 with ⟨e, h1, h2⟩ | ⟨v, q, q', h1, h2, h3⟩
    · exact Or.inl ⟨e, by simp only [GoRandom.call, GoRandom.nextSide, GoRandom.nextBool, h1]; rfl,
        by simp only [GoRandom.call, GoRandom.nextSide, GoRandom.nextBool, h2]; rfl⟩
    · exact Or.inr ⟨_, q, q', by simp only [GoRandom.call, GoRandom.nextSide, GoRandom.nextBool, h1]; rfl,
        by simp only [GoRandom.call, GoRandom.nextSide, GoRandom.nextBool, h2]; rfl, h3⟩

theorem trace_rng {S : Source} (fuel : Nat) (os : List GoOp) {r r' : GoRandom S} (h : r.rng = r'.rng) :
    r.trace fuel os = r'.trace fuel os := by
  induction os generalizing r r' with
  | nil => rfl
  | cons o os ih =>
    rcases call_rng fuel h o with ⟨e, h1, h2⟩ | ⟨v, q, q', h1, h2, h3⟩
    · simp only [GoRandom.trace, h1, h2]
    · simp only [GoRandom.trace, h1, h2, ih h3]

/-- **C93** as far as it is true: after `SetSeed(s)` all further values depend on `s` only.  Missing: the same for the seed given to
`NewGoRandomWithSeed`, and replay by `CloneAndReset`, see the refutations. -/
theorem C93_set_seed_partial {S : Source} (fuel : Nat) (os : List GoOp) (r r' : GoRandom S) (s : Nat) :
    (r.setSeed s).trace fuel os = (r'.setSeed s).trace fuel os :=
  trace_rng fuel os rfl

/-- **C93**: the seed given to `NewGoRandomWithSeed` has no influence: whatever is called afterwards, generators made at the same moment
with different seeds give the same values. -/
theorem C93_seed_ignored {S : Source} (fuel : Nat) (os : List GoOp) (now : Int) (s s' : Nat) :
    (GoRandom.newWithSeed S now s).trace fuel os = (GoRandom.newWithSeed S now s').trace fuel os :=
  trace_rng fuel os rfl

/-- **C93**, `GetSeed`: it returns the seed of the constructor, the time for `NewGoRandom`; `SetSeed` does not change it and a clone has the same one. -/
theorem C93_get_seed {S : Source} (now now' : Int) (seed t : Nat) :
    (GoRandom.newWithSeed S now seed).getSeed = seed ∧ ((GoRandom.newWithSeed S now seed).setSeed t).getSeed = seed ∧
    (((GoRandom.newWithSeed S now seed).setSeed t).cloneAndReset now').getSeed = seed ∧ (GoRandom.new S now now').getSeed = (now % 2 ^ 32).toNat :=
  ⟨rfl, rfl, rfl, rfl⟩

/-- **C93 is false.**  Take any source and any two moments whose seeds give different first numbers.  Then two generators made with the *same* seed at these
moments differ, a clone does not replay its original, and after `SetSeed(t)` the clone's seed is still the old one: `GetSeed` does not
return `t`. -/
theorem C93_refuted {S : Source} (fuel : Nat) (t1 t2 : Int) (seed : Nat)
    (h : (GoRandom.newWithSeed S t1 seed).trace fuel [.next] ≠ (GoRandom.newWithSeed S t2 seed).trace fuel [.next]) :
    (¬ ∀ (t t' : Int) (s : Nat) (os : List GoOp), (GoRandom.newWithSeed S t s).trace fuel os = (GoRandom.newWithSeed S t' s).trace fuel os) ∧
    (¬ ∀ (t t' : Int) (s : Nat) (os : List GoOp),
      ((GoRandom.newWithSeed S t s).cloneAndReset t').trace fuel os = (GoRandom.newWithSeed S t s).trace fuel os) ∧
    ¬ ∀ (r : GoRandom S) (s : Nat), (r.setSeed s).getSeed = s := by
  refine ⟨fun a => h (a t1 t2 seed _), fun a => h (a t2 t1 seed _), fun a => ?_⟩
  have h1 := a ⟨S.seed t1, 0⟩ 1
  exact absurd h1 (by simp [GoRandom.setSeed, GoRandom.getSeed])

/-! ### An instance -/

/-- A linear congruential source. -/
def lcgSource : Source where
  σ := Nat
  seed t := (t % 2 ^ 63).toNat
  int63 s := ((6364136223846793005 * s + 1442695040888963407) % 2 ^ 63, (6364136223846793005 * s + 1442695040888963407) % 2 ^ 63)

example : lcgSource.InRange := fun _ => Nat.mod_lt _ (by decide)

/-- The hypothesis of `C93_refuted` holds for the instance. -/
example : (GoRandom.newWithSeed lcgSource 1000 7).trace 5 [.next] ≠ (GoRandom.newWithSeed lcgSource 1001 7).trace 5 [.next] := by
  decide +kernel

/-- Draws of the instance: values in range, none needs more than five draws. -/
example : ∃ v r', (GoRandom.newWithSeed lcgSource 1000 7).nextIndex 5 10 = .ok (v, r') ∧ v < 10 := by
  have h : ((GoRandom.newWithSeed lcgSource 1000 7).nextIndex 5 10).isOk = true := by decide +kernel
  cases e : (GoRandom.newWithSeed lcgSource 1000 7).nextIndex 5 10 with
  | error x => rw [e] at h; cases h
  | ok p => exact ⟨p.1, p.2, rfl, (C93_range 5 _).1 10 p.1 p.2 e⟩

/-- Generator and source of the instance draw as `C93_draws` says. -/
example : ∃ v r', (GoRandom.newWithSeed lcgSource 1000 7).nextIndex 5 10 = .ok (v, r') ∧ ∃ k < 5,
    v = (lcgSource.int63 (lcgSource.after k (lcgSource.seed 1000))).1 / 2 ^ 32 % 10 := by
  have h : ((GoRandom.newWithSeed lcgSource 1000 7).nextIndex 5 10).isOk = true := by decide +kernel
  cases e : (GoRandom.newWithSeed lcgSource 1000 7).nextIndex 5 10 with
  | error x => rw [e] at h; cases h
  | ok p =>
    have hS : lcgSource.InRange := fun _ => Nat.mod_lt _ (by decide)
    obtain ⟨k, h1, h2⟩ := (C93_draws hS 5 _).1 10 p.1 p.2 (by decide) e
    simp only [show (10 : Nat) < 2 ^ 31 from by decide, if_true] at h2
    exact ⟨p.1, p.2, rfl, k, h1, h2.2.2.1⟩

/-- `Kiss32Random`'s way, a plain remainder of a 32-bit number, is not fair: for `n = 3` index 0 has one number more than index 2. -/
example : ((Finset.range (2 ^ 32)).filter (fun v => v % 3 = 0)).card = ((Finset.range (2 ^ 32)).filter (fun v => v % 3 = 2)).card + 1 := by
  have h := fun i => Nat.count_modEq_card (2 ^ 32) (r := 3) (by omega) i
  simp only [Nat.ModEq] at h
  have h0 := h 0
  have h2 := h 2
  norm_num at h0 h2
  rw [← Nat.count_eq_card_filter_range, ← Nat.count_eq_card_filter_range, show 2 ^ 32 = 4294967296 from rfl, h0, h2]

end Annoy
