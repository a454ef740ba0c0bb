import Verif.Props.Generators
import Verif.Proof.KissBalance
import Verif.Spec.Kiss
import Mathlib.Logic.Function.Iterate
import Mathlib.Tactic.Ring
/-!
# The streams of the Kiss generators: KISS as published (C78), seeds (C79), period (C80)
-/
namespace Annoy

/-- The state of a generator after `k` draws (of any kind: every draw calls `Next` once, random/kiss32random.go:51-64). -/
def Kiss32.after (w : Nat) (r : Kiss32) (k : Nat) : Kiss32 := (fun r => (Kiss32.next w r).2)^[k] r

theorem Kiss32.after_succ (w : Nat) (r : Kiss32) (k : Nat) : r.after w (k + 1) = (Kiss32.next w (r.after w k)).2 :=
  Function.iterate_succ_apply' _ _ _

/-! ### C78: the published generators -/

/-- The state as machine words. -/
def Kiss32.words (r : Kiss32) : Published.Kiss := ⟨.ofNat 32 r.x, .ofNat 32 r.y, .ofNat 32 r.z, .ofNat 32 r.c⟩

/-- **C78 is false for `Kiss32Random`**: started as published, already its first number is not the published one.  (The code adds
698769069 and `z`, random/kiss32random.go:43, where KISS multiplies.) -/
theorem C78_kiss32_refuted : (Kiss32.new 0).words = Published.Kiss.start ∧
    BitVec.ofNat 32 (Kiss32.next 32 (Kiss32.new 0)).1 ≠ (Published.Kiss.start.step).1 := by decide +kernel

/-- **C78, partial**: what remains of KISS in `Kiss32Random[uint32]`.  Missing is the multiply-with-carry component.  The number returned is the sum of the three
components; two of them are as published. -/
theorem C78_kiss32_partial (r : Kiss32) :
    let s := (Kiss32.next 32 r).2
    s.words.lcg = Published.lcg32 r.words.lcg ∧ s.words.shr = Published.shr32 r.words.shr ∧
      BitVec.ofNat 32 (Kiss32.next 32 r).1 = s.words.lcg + s.words.shr + s.words.mwc := by
  have hm : ∀ a, BitVec.ofNat 32 (a % 2 ^ 32) = BitVec.ofNat 32 a := fun a => by
    apply BitVec.eq_of_toNat_eq
    rw [BitVec.toNat_ofNat, BitVec.toNat_ofNat, Nat.mod_mod]
  refine ⟨?_, ?_, ?_⟩
  · show BitVec.ofNat 32 ((69069 * r.x + 12345) % 2 ^ 32) = 69069#32 * BitVec.ofNat 32 r.x + 12345#32
    rw [hm, BitVec.ofNat_add, BitVec.ofNat_mul]
  · show BitVec.ofNat 32 (xorshift (r.y % 2 ^ 32)) = Published.shr32 (BitVec.ofNat 32 r.y)
    apply BitVec.eq_of_toNat_eq
    rw [BitVec.toNat_ofNat, Nat.mod_eq_of_lt (xorshift_lt (Nat.mod_lt _ (Nat.two_pow_pos 32)))]
    simp only [Published.shr32, BitVec.toNat_xor, BitVec.toNat_shiftLeft, BitVec.toNat_ushiftRight, BitVec.toNat_ofNat]
    rfl
  · show BitVec.ofNat 32 ((_ + _ + _) % 2 ^ 32) = _
    rw [hm, BitVec.ofNat_add, BitVec.ofNat_add]
    rfl

/-- What the third component does instead: `z + c` moves by the same amount in every draw, modulo `2^32 - 1`.  So from any state, after `k` draws it is known without knowing
what happened in between. -/
theorem C78_kiss32_carry (r : Kiss32) (hz : r.z < 2 ^ 32) (hc : r.c < 2 ^ 32) (k : Nat) :
    ((r.after 32 k).z + (r.after 32 k).c) % (2 ^ 32 - 1) = (r.z + r.c + 698769069 * k) % (2 ^ 32 - 1) := by
  have key : ∀ k, (r.after 32 k).z < 2 ^ 32 ∧ (r.after 32 k).c < 2 ^ 32 ∧
      ((r.after 32 k).z + (r.after 32 k).c) % (2 ^ 32 - 1) = (r.z + r.c + 698769069 * k) % (2 ^ 32 - 1) := by
    intro k
    induction k with
    | zero => exact ⟨hz, hc, rfl⟩
    | succ k ih =>
      obtain ⟨h1, h2, h3⟩ := ih
      have h1 : (r.after 32 k).z < 4294967296 := h1
      have h2 : (r.after 32 k).c < 4294967296 := h2
      rw [Kiss32.after_succ]
      obtain ⟨g1, g2⟩ := Kiss32.next_zc (r.after 32 k)
      rw [Nat.mod_eq_of_lt h1, Nat.mod_eq_of_lt h2] at g2
      generalize (Kiss32.next 32 (r.after 32 k)).2 = u at *
      generalize r.after 32 k = v at *
      have e : (u.z + u.c) % 4294967295 = (698769069 + v.z + v.c) % 4294967295 := by
        rw [← g2]
        have : u.z + 4294967296 * u.c = u.z + u.c + 4294967295 * u.c := by omega
        rw [this, Nat.add_mul_mod_self_left]
      have h3 : (v.z + v.c) % 4294967295 = (r.z + r.c + 698769069 * k) % 4294967295 := h3
      refine ⟨g1, by omega, ?_⟩
      show (u.z + u.c) % 4294967295 = (r.z + r.c + 698769069 * (k + 1)) % 4294967295
      rw [e, show 698769069 + v.z + v.c = v.z + v.c + 698769069 by omega, Nat.add_mod, h3, ← Nat.add_mod]
      have : r.z + r.c + 698769069 * k + 698769069 = r.z + r.c + 698769069 * (k + 1) := by omega
      rw [this]
  exact (key k).2.2

/-- **C78 for `Kiss64Random`**: its three components are the published ones: a linear congruential number, xorshifts and
a multiply-with-carry number with multiplier `2^58 + 1` (for carries below `2^58`; the largest carry that can occur is `2^58`). -/
theorem C78_kiss64 (r : Kiss64) (hx : r.x < 2 ^ 64) (hc : r.c < 2 ^ 58) :
    let s := (Kiss64.next r).2
    s.x + 2 ^ 64 * s.c = (2 ^ 58 + 1) * r.x + r.c ∧ s.x < 2 ^ 64 ∧ s.c ≤ 2 ^ 58 ∧
      s.z = (6906969069 * r.z + 1234567) % 2 ^ 64 ∧ BitVec.ofNat 64 s.y = Published.shr64 (BitVec.ofNat 64 r.y) ∧ (Kiss64.next r).1 = (s.x + s.y + s.z) % 2 ^ 64 := by
  have hx' : r.x < 18446744073709551616 := hx
  have hc' : r.c < 288230376151711744 := hc
  have ht : ((r.x <<< 58) % 2 ^ 64 + r.c) % 2 ^ 64 = r.x % 64 * 288230376151711744 + r.c := by
    rw [Nat.shiftLeft_eq]
    omega
  have hs : (r.x % 2 ^ 64) >>> 6 = r.x / 64 := by rw [Nat.shiftRight_eq_div_pow, Nat.mod_eq_of_lt hx]
  set s := (Kiss64.next r).2 with hs0
  have e1 : s.x = (r.x + (r.x % 64 * 288230376151711744 + r.c)) % 18446744073709551616 := by
    rw [hs0, ← ht]; rfl
  have e2 : s.c = if s.x < r.x % 64 * 288230376151711744 + r.c then (r.x / 64 + 1) % 18446744073709551616 else r.x / 64 := by
    rw [e1, ← hs, ← ht, hs0]; rfl
  have key : s.x + 18446744073709551616 * s.c = 288230376151711745 * r.x + r.c ∧ s.c ≤ 288230376151711744 := by
    generalize hm : r.x % 64 = m at *
    generalize hq : r.x / 64 = q at *
    have hlow : r.x = q * 64 + m := by omega
    have hq2 : q < 288230376151711744 := by omega
    generalize ht' : m * 288230376151711744 + r.c = t at *
    have ht2 : t < 18446744073709551616 := by omega
    rcases Nat.lt_or_ge (r.x + t) 18446744073709551616 with h | h
    · rw [Nat.mod_eq_of_lt h] at e1
      rw [if_neg (by omega)] at e2
      omega
    · rw [Nat.mod_eq_sub_mod h, Nat.mod_eq_of_lt (by omega)] at e1
      rw [if_pos (by omega), Nat.mod_eq_of_lt (by omega)] at e2
      omega
  refine ⟨key.1, ?_, key.2, rfl, ?_, rfl⟩
  · rw [e1]; exact Nat.mod_lt _ (by decide)
  · apply BitVec.eq_of_toNat_eq
    simp only [Published.shr64, BitVec.toNat_xor, BitVec.toNat_shiftLeft, BitVec.toNat_ushiftRight, BitVec.toNat_ofNat]
    apply Nat.mod_eq_of_lt
    have hm : ∀ v, v % 2 ^ 64 < 2 ^ 64 := fun v => Nat.mod_lt _ (Nat.two_pow_pos _)
    have h1 := Nat.xor_lt_two_pow (hm r.y) (hm ((r.y % 2 ^ 64) <<< 13))
    exact Nat.xor_lt_two_pow (Nat.xor_lt_two_pow h1 (Nat.lt_of_le_of_lt (Nat.shiftRight_le _ _) h1)) (hm _)

/-- **C78 for `Kiss64Random`**, the largest carry that can occur: the multiply-with-carry step is the published one also for the carry `2^58`, except when
the last six bits of `x` are ones; then `t` overflows and `2^64` is lost (the number `x` and the carry of the next step are those of a `t` of zero). -/
theorem C78_kiss64_edge (r : Kiss64) (hx : r.x < 2 ^ 64) (hc : r.c = 2 ^ 58) :
    let s := (Kiss64.next r).2
    s.x + 2 ^ 64 * s.c + (if r.x % 64 = 63 then 2 ^ 64 else 0) = (2 ^ 58 + 1) * r.x + r.c ∧ s.c ≤ 2 ^ 58 := by
  have hx' : r.x < 18446744073709551616 := hx
  have hc' : r.c = 288230376151711744 := hc
  have ht : ((r.x <<< 58) % 2 ^ 64 + r.c) % 2 ^ 64 = (r.x % 64 * 288230376151711744 + r.c) % 18446744073709551616 := by
    rw [Nat.shiftLeft_eq]
    omega
  have hs : (r.x % 2 ^ 64) >>> 6 = r.x / 64 := by rw [Nat.shiftRight_eq_div_pow, Nat.mod_eq_of_lt hx]
  set s := (Kiss64.next r).2 with hs0
  have e1 : s.x = (r.x + (r.x % 64 * 288230376151711744 + r.c) % 18446744073709551616) % 18446744073709551616 := by
    rw [hs0, ← ht]; rfl
  have e2 : s.c = if s.x < (r.x % 64 * 288230376151711744 + r.c) % 18446744073709551616 then (r.x / 64 + 1) % 18446744073709551616 else r.x / 64 := by
    rw [e1, ← hs, ← ht, hs0]; rfl
  show s.x + 18446744073709551616 * s.c + (if r.x % 64 = 63 then 18446744073709551616 else 0) = 288230376151711745 * r.x + r.c ∧ s.c ≤ 288230376151711744
  generalize hm : r.x % 64 = m at *
  generalize hq : r.x / 64 = q at *
  have hlow : r.x = q * 64 + m := by omega
  by_cases h63 : m = 63
  · rw [if_pos h63]
    have e : (m * 288230376151711744 + r.c) % 18446744073709551616 = 0 := by omega
    rw [e] at e1 e2
    rw [if_neg (by omega)] at e2
    omega
  · rw [if_neg h63]
    have ht2 : m * 288230376151711744 + r.c < 18446744073709551616 := by omega
    rw [Nat.mod_eq_of_lt ht2] at e1 e2
    generalize ht' : m * 288230376151711744 + r.c = t at *
    rcases Nat.lt_or_ge (r.x + t) 18446744073709551616 with h | h
    · rw [Nat.mod_eq_of_lt h] at e1
      rw [if_neg (by omega)] at e2
      omega
    · rw [Nat.mod_eq_sub_mod h, Nat.mod_eq_of_lt (by omega)] at e1
      rw [if_pos (by omega), Nat.mod_eq_of_lt (by omega)] at e2
      omega

/-- The carry `2^58` occurs: after a number `x` near `2^64`; and the step after it is the exceptional one. -/
example : ((Kiss64.next ⟨2 ^ 64 - 1, 1, 1, 1, 1⟩).2.c = 2 ^ 58) ∧ (⟨2 ^ 64 - 1, 1, 1, 2 ^ 58, 1⟩ : Kiss64).x % 64 = 63 := by decide +kernel

/-- The hypotheses of `C78_kiss64` hold for the published start values. -/
example : (Kiss64.new 0).x < 2 ^ 64 ∧ (Kiss64.new 0).c < 2 ^ 58 := by decide +kernel

/-! ### C79: seeds -/

/-- Side number `k` of a generator. -/
def Kiss32.sideNo (w : Nat) (r : Kiss32) (k : Nat) : Side := (Kiss32.nextSide w (r.after w k)).1

/-- Number `k` of a generator. -/
def Kiss32.valueNo (w : Nat) (r : Kiss32) (k : Nat) : Nat := (Kiss32.next w (r.after w k)).1

/-- The other side. -/
def otherSide : Side → Side
  | .left => .right
  | .right => .left

theorem Kiss32.after_same {w : Nat} {r r' : Kiss32} (hy : r.y = r'.y) (hz : r.z = r'.z) (hc : r.c = r'.c) (k : Nat) :
    (r.after w k).y = (r'.after w k).y ∧ (r.after w k).z = (r'.after w k).z ∧ (r.after w k).c = (r'.after w k).c := by
  induction k with
  | zero => exact ⟨hy, hz, hc⟩
  | succ k ih =>
    obtain ⟨h1, h2, h3⟩ := ih
    rw [after_succ, after_succ]
    simp only [Kiss32.next]
    rw [h1, h2, h3]
    exact ⟨rfl, rfl, rfl⟩

theorem Kiss32.after_x (w : Nat) (r : Kiss32) (k : Nat) : (r.after w k).x % 2 ^ w = (fun x => 69069 * x + 12345)^[k] r.x % 2 ^ w := by
  induction k with
  | zero => rfl
  | succ k ih =>
    rw [after_succ, Function.iterate_succ_apply']
    show (69069 * (r.after w k).x + 12345) % 2 ^ w % 2 ^ w = _
    rw [Nat.mod_mod, Nat.add_mod, Nat.mul_mod, ih, ← Nat.mul_mod, ← Nat.add_mod]

/-- The seed that `NewKiss32Random` uses. -/
def usedSeed (s : Nat) : Nat := if s = 0 then 123456789 else s

theorem Kiss32.value_eq {w : Nat} (s s' k : Nat) : ∃ a, (Kiss32.new s).valueNo w k
      = ((fun x => 69069 * x + 12345)^[k + 1] (usedSeed s) + a) % 2 ^ w ∧
    (Kiss32.new s').valueNo w k = ((fun x => 69069 * x + 12345)^[k + 1] (usedSeed s') + a) % 2 ^ w := by
  obtain ⟨h1, h2, h3⟩ := Kiss32.after_same (w := w) (r := Kiss32.new s) (r' := Kiss32.new s') rfl rfl rfl (k + 1)
  have key : ∀ s, (Kiss32.new s).valueNo w k = ((fun x => 69069 * x + 12345)^[k + 1] (usedSeed s)
      + (((Kiss32.new s).after w (k + 1)).y + ((Kiss32.new s).after w (k + 1)).z)) % 2 ^ w := by
    intro s
    have e : (Kiss32.new s).valueNo w k = (((Kiss32.new s).after w (k + 1)).x + ((Kiss32.new s).after w (k + 1)).y
        + ((Kiss32.new s).after w (k + 1)).z) % 2 ^ w := by
      rw [after_succ]; rfl
    rw [e, Nat.add_assoc, Nat.add_mod, after_x, ← Nat.add_mod]
    rfl
  refine ⟨_, key s, ?_⟩
  rw [key s', h1, h2]

theorem lcg_iter_mod {m : Nat} {a b : Nat} (h : a % m = b % m) (k : Nat) :
    (fun x => 69069 * x + 12345)^[k] a % m = (fun x => 69069 * x + 12345)^[k] b % m := by
  induction k with
  | zero => exact h
  | succ k ih =>
    rw [Function.iterate_succ_apply', Function.iterate_succ_apply', Nat.add_mod, Nat.mul_mod, ih, ← Nat.mul_mod, ← Nat.add_mod]

/-- **C79, values**: seeds that differ (modulo `2 ^ w`, the range of the index type) give generators that differ in every single number they return from `Next`. -/
theorem C79_values {w : Nat} {s s' : Nat} (h : usedSeed s % 2 ^ w ≠ usedSeed s' % 2 ^ w) (k : Nat) :
    (Kiss32.new s).valueNo w k ≠ (Kiss32.new s').valueNo w k := by
  obtain ⟨a, h1, h2⟩ := Kiss32.value_eq (w := w) s s' k
  rw [h1, h2]
  intro he
  have e1 : (fun x => 69069 * x + 12345)^[k + 1] (usedSeed s) ≡ (fun x => 69069 * x + 12345)^[k + 1] (usedSeed s') [MOD 2 ^ w] :=
    Nat.ModEq.add_right_cancel' a he
  clear he h1 h2
  have hco : Nat.Coprime (2 ^ w) 69069 := Nat.Coprime.pow_left w (by decide)
  generalize k + 1 = n at e1
  induction n with
  | zero => exact h e1
  | succ n ih =>
    rw [Function.iterate_succ_apply', Function.iterate_succ_apply'] at e1
    exact ih (Nat.ModEq.cancel_left_of_coprime hco (Nat.ModEq.add_right_cancel' 12345 e1))

/-- **C79, indexes**: when `n` divides `2 ^ w`, `NextIndex(n)` sees of the seed only its remainder modulo `n`. -/
theorem C79_index {w n : Nat} (hn : n ∣ 2 ^ w) {s s' : Nat} (h : usedSeed s % n = usedSeed s' % n) (k : Nat) :
    (Kiss32.new s).valueNo w k % n = (Kiss32.new s').valueNo w k % n := by
  obtain ⟨a, h1, h2⟩ := Kiss32.value_eq (w := w) s s' k
  rw [h1, h2, Nat.mod_mod_of_dvd _ hn, Nat.mod_mod_of_dvd _ hn, Nat.add_mod, lcg_iter_mod h, ← Nat.add_mod]

theorem Kiss32.sideNo_eq (w : Nat) (r : Kiss32) (k : Nat) :
    r.sideNo w k = if r.valueNo w k % 2 = 1 then .left else .right := by
  show (if ((Kiss32.next w (r.after w k)).1 &&& 1 == 1) = true then Side.left else Side.right) = _
  rw [Nat.and_one_is_mod]
  unfold Kiss32.valueNo
  simp only [beq_iff_eq]

theorem lcg_mod_two (u : Nat) : (69069 * u + 12345) % 2 = 1 - u % 2 := by omega

theorem lcg_flip (n : Nat) : ∀ {u v : Nat}, u % 2 ≠ v % 2 →
    (fun x => 69069 * x + 12345)^[n] u % 2 ≠ (fun x => 69069 * x + 12345)^[n] v % 2 := by
  induction n with
  | zero => intro u v h; exact h
  | succ n ih =>
    intro u v h
    rw [Function.iterate_succ_apply, Function.iterate_succ_apply]
    have h1 : (69069 * u + 12345) % 2 ≠ (69069 * v + 12345) % 2 := by
      rw [lcg_mod_two, lcg_mod_two]
      rcases Nat.mod_two_eq_zero_or_one u with e | e <;> rcases Nat.mod_two_eq_zero_or_one v with e' | e' <;>
        rw [e, e'] at h ⊢ <;> simp at h ⊢
    exact ih h1

/-- **C79, sides**: of the seed `NextSide` sees only whether it is odd.  Seeds of the same parity give the same sides forever, seeds of different parity give
mirror images. -/
theorem C79_sides {w : Nat} (hw : 0 < w) (s s' : Nat) (k : Nat) :
    (Kiss32.new s).sideNo w k = if usedSeed s % 2 = usedSeed s' % 2 then (Kiss32.new s').sideNo w k
      else otherSide ((Kiss32.new s').sideNo w k) := by
  have h2 : 2 ∣ 2 ^ w := dvd_pow_self 2 (by omega)
  by_cases h : usedSeed s % 2 = usedSeed s' % 2
  · rw [if_pos h, Kiss32.sideNo_eq, Kiss32.sideNo_eq, C79_index h2 h]
  · rw [if_neg h, Kiss32.sideNo_eq, Kiss32.sideNo_eq]
    obtain ⟨a, h3, h4⟩ := Kiss32.value_eq (w := w) s s' k
    have := lcg_flip (k + 1) h
    rw [h3, h4, Nat.mod_mod_of_dvd _ h2, Nat.mod_mod_of_dvd _ h2]
    clear h3 h4
    generalize (fun x => 69069 * x + 12345)^[k + 1] (usedSeed s) = u at *
    generalize (fun x => 69069 * x + 12345)^[k + 1] (usedSeed s') = v at *
    clear h h2
    rcases Nat.mod_two_eq_zero_or_one (u + a) with h5 | h5
    · rw [if_neg (by omega), if_pos (by omega)]; rfl
    · rw [if_pos h5, if_neg (by omega)]; rfl

/-- **C79 is false**: generators with the different seeds 2 and 4 draw the same sides, however long they run. -/
theorem C79_refuted : ∀ k, (Kiss32.new 2).sideNo 32 k = (Kiss32.new 4).sideNo 32 k := by
  intro k
  rw [C79_sides (by decide) 2 4 k]
  exact if_pos (by decide)

/-- The hypotheses of `C79_values` and `C79_index`: seeds 2 and 4, indexes below 2. -/
example : usedSeed 2 % 2 ^ 32 ≠ usedSeed 4 % 2 ^ 32 ∧ usedSeed 2 % 2 = usedSeed 4 % 2 ∧ 2 ∣ 2 ^ 32 := by decide +kernel

/-! ### C80: period -/

/-- `2 ^ k` steps of the linear congruential component add `2 ^ k`, modulo `2 ^ (k + 1)`. -/
theorem lcg_pow (k : Nat) : ∃ a c, ∀ x, (fun x => 69069 * x + 12345)^[2 ^ k] x = (2 ^ (k + 2) * a + 1) * x + 2 ^ k * (2 * c + 1) := by
  induction k with
  | zero => exact ⟨17267, 6172, fun x => by show 69069 * x + 12345 = _; omega⟩
  | succ k ih =>
    obtain ⟨a, c, h⟩ := ih
    refine ⟨2 ^ (k + 1) * a * a + a, 2 * c * 2 ^ k * a + 2 ^ k * a + c, fun x => ?_⟩
    rw [Nat.pow_succ, Nat.mul_two, Function.iterate_add_apply, h, h]
    ring

theorem lcg_period {w m x : Nat} (h : (fun x => 69069 * x + 12345)^[m] x % 2 ^ w = x % 2 ^ w) : 2 ^ w ∣ m := by
  have key : ∀ k, k ≤ w → 2 ^ k ∣ m := by
    intro k
    induction k with
    | zero => intro _; simp
    | succ k ih =>
      intro hk
      obtain ⟨q, rfl⟩ := ih (by omega)
      obtain ⟨a, c, hp⟩ := lcg_pow k
      have hq : ∀ q, (fun x => 69069 * x + 12345)^[2 ^ k * q] x % 2 ^ (k + 1) = (x + 2 ^ k * q) % 2 ^ (k + 1) := by
        intro q
        induction q with
        | zero => rfl
        | succ q ihq =>
          have e : 2 ^ k * (q + 1) = 2 ^ k + 2 ^ k * q := by ring
          rw [e, Function.iterate_add_apply, hp]
          generalize (fun x => 69069 * x + 12345)^[2 ^ k * q] x = y at *
          have e2 : (2 ^ (k + 2) * a + 1) * y + 2 ^ k * (2 * c + 1) = y + 2 ^ k + 2 ^ (k + 1) * (2 * a * y + c) := by ring
          rw [e2, Nat.add_mul_mod_self_left, Nat.add_mod, ihq, ← Nat.add_mod]
          congr 1
          ring
      have h1 : (x + 2 ^ k * q) % 2 ^ (k + 1) = x % 2 ^ (k + 1) := by
        rw [← hq q]
        have hd : 2 ^ (k + 1) ∣ 2 ^ w := Nat.pow_dvd_pow 2 hk
        rw [← Nat.mod_mod_of_dvd _ hd, h, Nat.mod_mod_of_dvd _ hd]
      have h2 : 2 ^ (k + 1) ∣ 2 ^ k * q := by
        have h3 : x + 2 ^ k * q ≡ x + 0 [MOD 2 ^ (k + 1)] := h1
        exact (Nat.modEq_zero_iff_dvd).1 (Nat.ModEq.add_left_cancel' x h3)
      exact h2
  exact key w (Nat.le_refl w)

/-- **C80.**  The state of `Kiss32Random` never repeats before `2 ^ w` draws, whatever it is and whatever the width `w` of the index type: if it is the same after `i` and
after `j` draws then `j - i` is a multiple of `2 ^ w`. -/
theorem C80_period (w : Nat) (r : Kiss32) (i j : Nat) (hij : i ≤ j) (h : r.after w i = r.after w j) : 2 ^ w ∣ j - i := by
  obtain ⟨m, rfl⟩ : ∃ m, j = i + m := ⟨j - i, by omega⟩
  rw [Nat.add_sub_cancel_left]
  have e : r.after w (i + m) = (r.after w i).after w m := by
    unfold Kiss32.after
    rw [Nat.add_comm, Function.iterate_add_apply]
  rw [e] at h
  have := Kiss32.after_x w (r.after w i) m
  rw [← h] at this
  exact lcg_period this.symm

/-- Within `2 ^ w` draws no two states are equal. -/
theorem C80_distinct (w : Nat) (r : Kiss32) (i j : Nat) (hij : i < j) (hj : j - i < 2 ^ w) : r.after w i ≠ r.after w j := by
  intro h
  have := Nat.le_of_dvd (by omega) (C80_period w r i j hij.le h)
  omega

/-- The first two states of the default generator differ. -/
example : (Kiss32.new 0).after 32 0 ≠ (Kiss32.new 0).after 32 1 := C80_distinct 32 _ 0 1 (by decide) (by decide)

end Annoy
