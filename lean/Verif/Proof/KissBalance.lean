import Verif.Proof.KissSides
import Verif.Proof.Share
/-!
Random sides drawn with `Kiss32Random[uint32]` are eventually balanced.
-/
namespace Annoy
namespace Kiss32

/-- The state `r` has settled: the carry is that of a rotation by 698769069 on `2^32 - 1` points with phase `τ`. -/
def Phase (r : Kiss32) (τ : Nat) : Prop :=
  r.y < 2 ^ 32 ∧ r.z < 2 ^ 32 ∧ r.c ≤ 1 ∧ τ < 4294967295 ∧ r.z + 4294967296 * r.c = τ + 1 + 698769069

theorem next_y (r : Kiss32) : (next 32 r).2.y = xorshift (r.y % 2 ^ 32) := rfl

theorem next_z (r : Kiss32) : (next 32 r).2.z = (698769069 + r.z % 2 ^ 32 + r.c % 2 ^ 32) % 2 ^ 32 := by
  show (698769069 + r.z % 2 ^ 32 + r.c % 2 ^ 32) % 2 ^ 64 % 2 ^ 32 = _
  omega

theorem next_c (r : Kiss32) : (next 32 r).2.c = (698769069 + r.z % 2 ^ 32 + r.c % 2 ^ 32) / 2 ^ 32 := by
  show (((698769069 + r.z % 2 ^ 32 + r.c % 2 ^ 32) % 2 ^ 64) >>> 32) % 2 ^ 32 = _
  rw [Nat.shiftRight_eq_div_pow]
  omega

theorem next_x (r : Kiss32) : (next 32 r).2.x = (69069 * r.x + 12345) % 2 ^ 32 := rfl

theorem next_val (r : Kiss32) : (next 32 r).1 = ((next 32 r).2.x + (next 32 r).2.y + (next 32 r).2.z) % 2 ^ 32 := rfl

theorem next_zc (r : Kiss32) : (next 32 r).2.z < 4294967296 ∧
    (next 32 r).2.z + 4294967296 * (next 32 r).2.c = 698769069 + r.z % 4294967296 + r.c % 4294967296 := by
  rw [next_z, next_c]
  exact ⟨Nat.mod_lt _ (by decide), Nat.mod_add_div _ _⟩

theorem Phase.next {r : Kiss32} {τ : Nat} (h : r.Phase τ) : (next 32 r).2.Phase ((τ + 698769069) % 4294967295) := by
  obtain ⟨h1, h2, h3, h4, h5⟩ := h
  obtain ⟨g1, g2⟩ := next_zc r
  have h2 : r.z < 4294967296 := h2
  rw [Nat.mod_eq_of_lt h2, Nat.mod_eq_of_lt (by omega)] at g2
  have g3 : (Kiss32.next 32 r).2.c ≤ 1 := by omega
  refine ⟨?_, g1, g3, Nat.mod_lt _ (by decide), ?_⟩
  · rw [next_y]; exact xorshift_lt (Nat.mod_lt _ (by decide))
  · rw [g2]
    rcases Nat.lt_or_ge (τ + 698769069) 4294967295 with hM | hM
    · rw [Nat.mod_eq_of_lt hM]
      have : r.c = 0 := by omega
      rw [this] at h5 ⊢
      omega
    · rw [Nat.mod_eq_sub_mod hM, Nat.mod_eq_of_lt (by omega)]
      have : r.c = 1 := by omega
      rw [this] at h5 ⊢
      omega

/-- Every state settles within three draws. -/
theorem settles (r : Kiss32) : ∃ τ, (next 32 (next 32 (next 32 r).2).2).2.Phase τ := by
  obtain ⟨a1, a2⟩ := next_zc r
  obtain ⟨b1, b2⟩ := next_zc (next 32 r).2
  generalize (next 32 r).2 = s at *
  obtain ⟨c1, c2⟩ := next_zc (next 32 s).2
  have c3 := next_y (next 32 s).2
  generalize (next 32 s).2 = t at *
  generalize (next 32 t).2 = u at *
  have z1 : r.z % 4294967296 < 4294967296 := Nat.mod_lt _ (by decide)
  have z2 : r.c % 4294967296 < 4294967296 := Nat.mod_lt _ (by decide)
  have s1 : s.c ≤ 2 := by omega
  rw [Nat.mod_eq_of_lt a1, Nat.mod_eq_of_lt (by omega)] at b2
  have t1 : t.c ≤ 1 := by omega
  rw [Nat.mod_eq_of_lt b1, Nat.mod_eq_of_lt (by omega)] at c2
  have t2 : 1 ≤ t.z + t.c ∧ t.z + t.c ≤ 4294967295 := by
    rcases (by omega : t.c = 0 ∨ t.c = 1) with h | h <;> rw [h] at b2 ⊢ <;> omega
  refine ⟨t.z + t.c - 1, ?_, c1, by omega, by omega, by omega⟩
  rw [c3]; exact xorshift_lt (Nat.mod_lt _ (by decide))

/-- The states drawn from `r`. -/
def at' (r : Kiss32) (t : Nat) : Kiss32 := (fun r => (next 32 r).2)^[t] r

theorem at_succ (r : Kiss32) (t : Nat) : r.at' (t + 1) = (next 32 (r.at' t)).2 := Function.iterate_succ_apply' _ _ _

theorem at_add (r : Kiss32) (s t : Nat) : (r.at' s).at' t = r.at' (s + t) := by
  unfold at'
  rw [Nat.add_comm, Function.iterate_add_apply]

theorem Phase.at' {r : Kiss32} {τ : Nat} (h : r.Phase τ) (t : Nat) : (r.at' t).Phase ((τ + 698769069 * t) % 4294967295) := by
  induction t with
  | zero =>
    rw [Nat.mul_zero, Nat.add_zero, Nat.mod_eq_of_lt h.2.2.2.1]
    exact h
  | succ t ih =>
    rw [at_succ]
    have := ih.next
    rw [Nat.mod_add_mod] at this
    have e : τ + 698769069 * t + 698769069 = τ + 698769069 * (t + 1) := by omega
    rwa [e] at this

theorem Phase.at_y {r : Kiss32} {τ : Nat} (h : r.Phase τ) (t : Nat) : (r.at' t).y = xorshift^[t] r.y := by
  induction t with
  | zero => rfl
  | succ t ih =>
    rw [at_succ, next_y, ih, Nat.mod_eq_of_lt (iter_xorshift_lt t h.1), Function.iterate_succ_apply']

/-- The low bit of the last number drawn, from the state after it. -/
def bit (r : Kiss32) : Bool := (r.x + r.y + r.z).testBit 0

theorem testBit_add (a b : Nat) : (a + b).testBit 0 = Bool.xor (a.testBit 0) (b.testBit 0) := by
  simp only [Nat.testBit_zero]
  rcases Nat.mod_two_eq_zero_or_one a with h | h <;> rcases Nat.mod_two_eq_zero_or_one b with h' | h' <;>
    simp [Nat.add_mod, h, h']

theorem nextSide_eq (r : Kiss32) : nextSide 32 r = (if bit (next 32 r).2 then .left else .right, (next 32 r).2) := by
  have : ((next 32 r).1 &&& 1 == 1) = bit (next 32 r).2 := by
    rw [next_val, Nat.and_one_is_mod]
    unfold bit
    rw [Nat.testBit_zero, Bool.beq_eq_decide_eq]
    congr 1
    rw [eq_iff_iff]
    omega
  show (if ((next 32 r).1 &&& 1 == 1) = true then Side.left else Side.right, (next 32 r).2) = _
  rw [this]

/-- Two neighbouring bits differ by a bit of the xorshift component and the carry. -/
theorem Phase.bit_next {r : Kiss32} {τ : Nat} (h : r.Phase τ) : Bool.xor (bit r) (bit (Kiss32.next 32 r).2) =
    Bool.xor (Bool.xor (r.y.testBit 0) ((xorshift r.y).testBit 0)) (decide (3596198226 ≤ τ)) := by
  obtain ⟨h1, h2, h3, h4, h5⟩ := h
  unfold bit
  rw [testBit_add, testBit_add, testBit_add, testBit_add, next_y, Nat.mod_eq_of_lt h1]
  have hx : (Kiss32.next 32 r).2.x.testBit 0 = !(r.x.testBit 0) := by
    rw [next_x]
    simp only [Nat.testBit_zero]
    rw [← decide_not, decide_eq_decide]
    omega
  have hz : (Kiss32.next 32 r).2.z.testBit 0 = !(Bool.xor (r.z.testBit 0) (decide (3596198226 ≤ τ))) := by
    rw [next_z]
    simp only [Nat.testBit_zero]
    rcases Nat.lt_or_ge τ 3596198226 with ht | ht
    · rw [decide_eq_false (by omega : ¬ 3596198226 ≤ τ), Bool.xor_false, ← decide_not, decide_eq_decide]
      omega
    · rw [decide_eq_true ht, Bool.xor_true, Bool.not_not, decide_eq_decide]
      omega
  rw [hx, hz]
  cases r.x.testBit 0 <;> cases r.y.testBit 0 <;> cases r.z.testBit 0 <;> cases (xorshift r.y).testBit 0 <;>
    cases decide (3596198226 ≤ τ) <;> rfl

/-- The bit of the number drawn at time `t`. -/
def bitAt (r : Kiss32) (t : Nat) : Bool := bit (r.at' (t + 1))

/-- Where two neighbouring bits are equal. -/
theorem bits_equal (r : Kiss32) : ∃ (d : Nat → Bool) (τ : Nat), Recurs kissPoly d ∧ ∀ t, r.bitAt (2 + t) = r.bitAt (2 + t + 1) →
    d t = decide (3596198226 ≤ (τ + 698769069 * t) % 4294967295) := by
  obtain ⟨τ, h⟩ := settles r
  have h : (r.at' 3).Phase τ := h
  refine ⟨fun t => Bool.xor ((xorshift^[t] (r.at' 3).y).testBit 0) ((xorshift^[1 + t] (r.at' 3).y).testBit 0), τ,
    (xorshift_recurs h.1).xor ((xorshift_recurs h.1).shift 1), ?_⟩
  intro t ht
  have h1 := (h.at' t).bit_next
  rw [h.at_y t, at_add, ← at_succ] at h1
  have e1 : r.at' (3 + t) = r.at' (2 + t + 1) := by congr 1; omega
  have e2 : r.at' (3 + t + 1) = r.at' (2 + t + 1 + 1) := by congr 1; omega
  unfold bitAt at ht
  rw [e1, e2, ht, Bool.xor_self, ← Function.iterate_succ_apply' xorshift] at h1
  show Bool.xor ((xorshift^[t] (r.at' 3).y).testBit 0) ((xorshift^[1 + t] (r.at' 3).y).testBit 0) = _
  rw [Nat.add_comm 1 t]
  rw [Bool.eq_iff_iff]
  revert h1
  cases Bool.xor ((xorshift^[t] (r.at' 3).y).testBit 0) ((xorshift^[t + 1] (r.at' 3).y).testBit 0) <;>
    cases decide (3596198226 ≤ (τ + 698769069 * t) % 4294967295) <;> simp

/-- From the third draw on no 38 bits in a row are equal. -/
theorem no_run (r : Kiss32) (t : Nat) : ∃ i, i < 37 ∧ r.bitAt (2 + t + i) ≠ r.bitAt (2 + t + i + 1) := by
  obtain ⟨d, τ, h1, h2⟩ := bits_equal r
  obtain ⟨m, hm, h3⟩ := certified_sound certified_one (h1.shift t) (τ + 698769069 * t)
  refine ⟨m, by omega, ?_⟩
  intro h4
  apply h3
  rw [Nat.one_mul]
  have := h2 (t + m) (by rw [← Nat.add_assoc]; exact h4)
  rw [this]
  congr 3
  rw [Nat.mul_add]; omega

/-- For no length do all rounds of that length begin with two equal bits. -/
theorem no_round (r : Kiss32) (t : Nat) {n : Nat} (h2 : 2 ≤ n) (h37 : n ≤ 37) :
    ∃ m ≤ 774, r.bitAt (2 + t + n * m) ≠ r.bitAt (2 + t + n * m + 1) := by
  obtain ⟨d, τ, h1, h3⟩ := bits_equal r
  obtain ⟨j, hj, p, hp, he⟩ := table_multiple h2 h37
  obtain ⟨m, hm, h4⟩ := certified_sound (certified_table p hp) (h1.shift t) (τ + 698769069 * t)
  refine ⟨j * m, Nat.mul_le_mul hj (by omega : m ≤ 43), ?_⟩
  intro h5
  apply h4
  have e1 : p.1 * m = n * (j * m) := by rw [he, Nat.mul_assoc]
  rw [e1]
  have := h3 (t + n * (j * m)) (by rw [← Nat.add_assoc]; exact h5)
  rw [this]
  congr 3
  rw [Nat.mul_add]; omega

end Kiss32

/-! ### counting -/

/-- Number of `true`s among `f t, …, f (t + n - 1)`. -/
def countAt (f : Nat → Bool) : Nat → Nat → Nat
  | _, 0 => 0
  | t, n + 1 => (f t).toNat + countAt f (t + 1) n

theorem countAt_add (f : Nat → Bool) (a : Nat) : ∀ t b, countAt f t (a + b) = countAt f t a + countAt f (t + a) b := by
  induction a with
  | zero => intro t b; simp [countAt]
  | succ a ih =>
    intro t b
    have : a + 1 + b = (a + b) + 1 := by omega
    rw [this]
    show (f t).toNat + countAt f (t + 1) (a + b) = (f t).toNat + countAt f (t + 1) a + _
    rw [ih]
    have : t + 1 + a = t + (a + 1) := by omega
    rw [this]
    omega

theorem countAt_pos {f : Nat → Bool} {i : Nat} : ∀ {t n}, i < n → f (t + i) = true → 1 ≤ countAt f t n := by
  induction i with
  | zero =>
    intro t n hn h
    obtain ⟨n, rfl⟩ : ∃ k, n = k + 1 := ⟨n - 1, by omega⟩
    unfold countAt
    rw [Nat.add_zero] at h
    rw [h]
    simp
  | succ i ih =>
    intro t n hn h
    obtain ⟨n, rfl⟩ : ∃ k, n = k + 1 := ⟨n - 1, by omega⟩
    unfold countAt
    have := ih (t := t + 1) (n := n) (by omega) (by rw [← h]; congr 1; omega)
    omega

/-- If every window of length `w` from `t0` on contains a `true` then there are at least `n / w` of them. -/
theorem countAt_windows {f : Nat → Bool} {w t0 : Nat} (h : ∀ t, t0 ≤ t → ∃ i < w, f (t + i) = true) (q : Nat) :
    ∀ t n, t0 ≤ t → w * q ≤ n → q ≤ countAt f t n := by
  induction q with
  | zero => intros; omega
  | succ q ih =>
    intro t n ht hn
    obtain ⟨b, rfl⟩ : ∃ b, n = w + b := ⟨n - w, by rw [Nat.mul_succ] at hn; omega⟩
    rw [countAt_add]
    obtain ⟨i, hi, h1⟩ := h t ht
    have := countAt_pos hi h1
    have := ih (t + w) b (by omega) (by rw [Nat.mul_succ] at hn; omega)
    omega

variable {c : Cfg}

/-- The generator after `t` random sides. -/
def sidesAfter (c : Cfg) (r : c.R.σ) (t : Nat) : c.R.σ := (fun r => (c.R.nextSide r).2)^[t] r

theorem assignSides_count (f : Nat → Bool) (r : c.R.σ)
    (hf : ∀ t, (c.R.nextSide (sidesAfter c r t)).1 = if f t then .left else .right) (ids : List Nat) :
    ∀ t, ∃ l rt, Idx.assignSides (c := c) (fun _ r => .ok (c.R.nextSide r)) ids (sidesAfter c r t)
      = .ok (l, rt, sidesAfter c r (t + ids.length)) ∧ l.length = countAt f t ids.length ∧
        rt.length = countAt (fun t => !f t) t ids.length := by
  induction ids with
  | nil => intro t; exact ⟨[], [], rfl, rfl, rfl⟩
  | cons j ids ih =>
    intro t
    obtain ⟨l, rt, h1, h2, h3⟩ := ih (t + 1)
    have e : sidesAfter c r (t + 1) = (c.R.nextSide (sidesAfter c r t)).2 := Function.iterate_succ_apply' _ _ _
    have e2 : t + 1 + ids.length = t + (j :: ids).length := by simp; omega
    rw [e, e2] at h1
    have hs : ∀ sd, (c.R.nextSide (sidesAfter c r t)).1 = sd →
        (Except.ok (c.R.nextSide (sidesAfter c r t)) : Except Err _) = .ok (sd, (c.R.nextSide (sidesAfter c r t)).2) := by
      intro sd h; rw [← h]
    cases hb : f t with
    | true =>
      refine ⟨j :: l, rt, Conc.assignSides_left (hs .left (by rw [hf t, hb]; rfl)) h1, ?_, ?_⟩
      · simp [countAt, h2, hb]; omega
      · simp [countAt, h3, hb]
    | false =>
      refine ⟨l, j :: rt, Conc.assignSides_right (hs .right (by rw [hf t, hb]; rfl)) h1, ?_, ?_⟩
      · simp [countAt, h2, hb]
      · simp [countAt, h3, hb]; omega

theorem drawSides_count (f : Nat → Bool) (r : c.R.σ)
    (hf : ∀ t, (c.R.nextSide (sidesAfter c r t)).1 = if f t then .left else .right) (ids : List Nat) (k : Nat) :
    ∀ t, (drawSides c ids (k + 1) (sidesAfter c r t)).1.length = countAt f (t + ids.length * k) ids.length ∧
      (drawSides c ids (k + 1) (sidesAfter c r t)).2.1.length = countAt (fun t => !f t) (t + ids.length * k) ids.length := by
  induction k with
  | zero =>
    intro t
    obtain ⟨l, rt, h1, h2, h3⟩ := assignSides_count f r hf ids t
    unfold drawSides
    rw [h1]
    exact ⟨h2, h3⟩
  | succ k ih =>
    intro t
    obtain ⟨l, rt, h1, h2, h3⟩ := assignSides_count f r hf ids t
    unfold drawSides
    rw [h1]
    have := ih (t + ids.length)
    have e : t + ids.length + ids.length * k = t + ids.length * (k + 1) := by rw [Nat.mul_add]; omega
    rw [e] at this
    exact this

theorem countAt_not (f : Nat → Bool) (n : Nat) : ∀ t, countAt f t n + countAt (fun t => !f t) t n = n := by
  induction n with
  | zero => intro t; rfl
  | succ n ih =>
    intro t
    have := ih (t + 1)
    show (f t).toNat + countAt f (t + 1) n + ((!f t).toNat + countAt (fun t => !f t) (t + 1) n) = n + 1
    cases f t <;> simp <;> omega

/-- Sides without long runs, and without a length for which all rounds begin with two equal sides, are soon balanced. -/
theorem balanced_of_bits (hle : ∀ l r, c.le99 l r = imbalanceLe99 l r) (hL : c.L.range ≤ 2 ^ 64)
    (h : ∀ r : c.R.σ, ∃ f : Nat → Bool, (∀ t, (c.R.nextSide (sidesAfter c r t)).1 = if f t then .left else .right) ∧
      (∀ t, ∃ i, i < 37 ∧ f (2 + t + i) ≠ f (2 + t + i + 1)) ∧
      ∀ t n, 2 ≤ n → n ≤ 37 → ∃ m ≤ 774, f (2 + t + n * m) ≠ f (2 + t + n * m + 1))
    (ids : List Nat) (r : c.R.σ) (h2 : 2 ≤ ids.length) (hlt : ids.length < c.L.range) :
    ∃ k ≤ 776, (38 ≤ ids.length → k = 1) ∧
      c.le99 (drawSides c ids (k + 1) r).1.length (drawSides c ids (k + 1) r).2.1.length = true := by
  obtain ⟨f, hf, hrun, hround⟩ := h r
  set n := ids.length with hn
  have fin : ∀ k, n ≤ 75 * countAt f (n * k) n → n ≤ 75 * countAt (fun t => !f t) (n * k) n →
      c.le99 (drawSides c ids (k + 1) r).1.length (drawSides c ids (k + 1) r).2.1.length = true := by
    intro k a b
    obtain ⟨e1, e2⟩ := drawSides_count f r hf ids k 0
    rw [Nat.zero_add, ← hn] at e1 e2
    have e0 : sidesAfter c r 0 = r := rfl
    rw [e0] at e1 e2
    rw [e1, e2, hle]
    have := countAt_not f n (n * k)
    exact imbalanceLe99_share (by omega) (by omega) (by omega) (by omega)
  have pick : ∀ a i, f (a + i) ≠ f (a + i + 1) → (∃ j < i + 2, f (a + j) = true) ∧ ∃ j < i + 2, (!f (a + j)) = true := by
    intro a i hne
    cases h1 : f (a + i) with
    | true =>
      rw [h1] at hne
      exact ⟨⟨i, by omega, h1⟩, i + 1, by omega, by rw [← Nat.add_assoc]; simpa using hne.symm⟩
    | false =>
      rw [h1] at hne
      exact ⟨⟨i + 1, by omega, by rw [← Nat.add_assoc]; simpa using hne.symm⟩, i, by omega, by simp [h1]⟩
  rcases Nat.lt_or_ge n 38 with hs | hs
  · obtain ⟨m, hle, hm⟩ := hround (2 * n - 2) n h2 (by omega)
    have e : 2 + (2 * n - 2) + n * m = n * (2 + m) := by rw [Nat.mul_add]; omega
    rw [e] at hm
    obtain ⟨⟨j, hj, h1⟩, j', hj', h1'⟩ := pick (n * (2 + m)) 0 hm
    refine ⟨2 + m, by omega, by omega, fin _ ?_ ?_⟩
    · have := countAt_pos (n := n) (by omega : j < n) h1
      omega
    · have := countAt_pos (n := n) (f := fun t => !f t) (by omega : j' < n) h1'
      omega
  · have win : ∀ t, 2 ≤ t → (∃ i < 38, f (t + i) = true) ∧ ∃ i < 38, (!f (t + i)) = true := by
      intro t ht
      obtain ⟨i, hi, hne⟩ := hrun (t - 2)
      have e : 2 + (t - 2) = t := by omega
      rw [e] at hne
      obtain ⟨⟨j, hj, h1⟩, j', hj', h1'⟩ := pick t i hne
      exact ⟨⟨j, by omega, h1⟩, j', by omega, h1'⟩
    refine ⟨1, by omega, fun _ => rfl, fin _ ?_ ?_⟩
    · have := countAt_windows (fun t ht => (win t ht).1) (n / 38) (n * 1) n (by omega) (Nat.mul_div_le _ _)
      omega
    · have := countAt_windows (f := fun t => !f t) (fun t ht => (win t ht).2) (n / 38) (n * 1) n (by omega) (Nat.mul_div_le _ _)
      omega

/-- Random sides drawn with the default generator and 32-bit indexes are balanced within 777 rounds, and within two if there are at least 38 items. -/
theorem kiss32_balanced_within (hR : c.R = kiss32Rng 32) (hle : c.le99 = imbalanceLe99) (hL : c.L.range ≤ 2 ^ 64)
    (ids : List Nat) (r : c.R.σ) (h2 : 2 ≤ ids.length) (hlt : ids.length < c.L.range) :
    ∃ k ≤ 776, (38 ≤ ids.length → k = 1) ∧
      c.le99 (drawSides c ids (k + 1) r).1.length (drawSides c ids (k + 1) r).2.1.length = true := by
  refine balanced_of_bits (fun l r => by rw [hle]) hL ?_ ids r h2 hlt
  clear h2 hlt r
  obtain ⟨L, N, C, R, D, lt95, le99, sortIds, partialSort⟩ := c
  dsimp only at hR
  subst hR
  intro r
  let r' : Kiss32 := r
  refine ⟨r'.bitAt, ?_, r'.no_run, fun t n h1 h2 => r'.no_round t h1 h2⟩
  intro t
  have e : ∀ t, sidesAfter ⟨L, N, C, kiss32Rng 32, D, lt95, le99, sortIds, partialSort⟩ r t = r'.at' t := by
    intro t
    induction t with
    | zero => rfl
    | succ t ih =>
      have h1 : ∀ s : Kiss32, (Kiss32.nextSide 32 s).2 = (Kiss32.next 32 s).2 := fun s => by rw [Kiss32.nextSide_eq]
      rw [Kiss32.at_succ]
      exact (Function.iterate_succ_apply' _ _ _).trans ((h1 _).trans (congrArg (fun s : Kiss32 => (Kiss32.next 32 s).2) ih))
  rw [e t]
  show (Kiss32.nextSide 32 (r'.at' t)).1 = _
  rw [Kiss32.nextSide_eq]
  unfold Kiss32.bitAt
  rw [Kiss32.at_succ]

theorem kiss32_balanced (hR : c.R = kiss32Rng 32) (hle : c.le99 = imbalanceLe99) (hL : c.L.range ≤ 2 ^ 64) : EventuallyBalanced c := by
  intro ids r h2 hlt
  obtain ⟨k, _, _, h⟩ := kiss32_balanced_within hR hle hL ids r h2 hlt
  exact ⟨k, h⟩

end Annoy
