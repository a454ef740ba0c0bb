import Verif.Model.Precision
import Verif.Proof.Averages
import Verif.Proof.ConcSearch
import Verif.Props.Margins
/-!
# C91: what `cmd/precision` reports
-/
namespace Annoy
namespace Precision
open Ieee

/-! ## Specification -/

/-- The items that the rounds of the program draw. -/
def draws (R : Rng) (numItems : Nat) : Nat → R.σ → Except Err (List Nat)
  | 0, _ => .ok []
  | n + 1, r => do
    let (j, r) ← R.nextIndex r numItems
    .ok (j :: (← draws R numItems n r))

/-- `top` is the answer to a default search for `limit` neighbours of item `j`. -/
def Answers {c : Cfg} (fuel : Nat) (w : World) (s : Idx c) (j limit : Nat) (top : List Nat) : Prop :=
  ∃ ctx ds ctx', s.getNnsByItem fuel w j limit (-1) ctx = .ok (top, ds, ctx')

/-- How many of the items `near` are among `top`. -/
def found (near top : List Nat) : Nat := (near.filter (· ∈ top)).length

theorem found_le (near top : List Nat) : found near top ≤ near.length := List.length_filter_le _ _

theorem found_all {near top : List Nat} (h : ∀ i ∈ near, i ∈ top) : found near top = near.length := by
  unfold found
  rw [List.filter_eq_self.2 (by simpa using h)]

/-! ## The limits -/

theorem mem_limitsFrom {n : Nat} : ∀ {fuel i : Nat}, 0 < i → n < fuel + i → ∀ l, l ∈ limitsFrom n fuel i ↔
    (∃ e, l = i * 10 ^ e ∧ l ≤ n) ∨ (l = 500 ∧ (∃ e, 100 = i * 10 ^ e) ∧ 100 ≤ n) := by
  intro fuel
  induction fuel with
  | zero =>
    intro i hi hf l
    simp only [limitsFrom, List.not_mem_nil, false_iff, not_or, not_exists, not_and]
    refine ⟨fun e h1 h2 => ?_, fun _ h => ?_⟩
    · have := Nat.le_mul_of_pos_right i (Nat.pow_pos (n := e) (show 0 < 10 by norm_num))
      omega
    · obtain ⟨e, he⟩ := h
      have := Nat.le_mul_of_pos_right i (Nat.pow_pos (n := e) (show 0 < 10 by norm_num))
      omega
  | succ fuel ih =>
    intro i hi hf l
    unfold limitsFrom
    by_cases hin : i ≤ n
    · rw [if_pos hin, List.cons_append, List.mem_cons, List.mem_append, ih (by omega) (by omega) l]
      constructor
      · rintro (rfl | h | ⟨e, h1, h2⟩ | ⟨h1, ⟨e, h2⟩, h3⟩)
        · exact Or.inl ⟨0, by simp, hin⟩
        · split at h
          · next h100 =>
            subst h100
            exact Or.inr ⟨by simpa using h, ⟨0, by simp⟩, hin⟩
          · simp at h
        · exact Or.inl ⟨e + 1, by rw [h1, Nat.pow_succ]; ring, h2⟩
        · exact Or.inr ⟨h1, ⟨e + 1, by rw [h2, Nat.pow_succ]; ring⟩, h3⟩
      · rintro (⟨e, h1, h2⟩ | ⟨h1, ⟨e, h2⟩, h3⟩)
        · cases e with
          | zero => left; simpa using h1
          | succ e => exact Or.inr (Or.inr (Or.inl ⟨e, by rw [h1, Nat.pow_succ]; ring, h2⟩))
        · cases e with
          | zero =>
            right; left
            rw [if_pos (by simpa using h2.symm)]
            simpa using h1
          | succ e => exact Or.inr (Or.inr (Or.inr ⟨h1, ⟨e, by rw [h2, Nat.pow_succ]; ring⟩, h3⟩))
    · rw [if_neg hin]
      simp only [List.not_mem_nil, false_iff, not_or, not_exists, not_and]
      refine ⟨fun e h1 h2 => ?_, fun _ h => ?_⟩
      · have := Nat.le_mul_of_pos_right i (Nat.pow_pos (n := e) (show 0 < 10 by norm_num))
        omega
      · obtain ⟨e, he⟩ := h
        have := Nat.le_mul_of_pos_right i (Nat.pow_pos (n := e) (show 0 < 10 by norm_num))
        omega

/-- The limits are the powers of ten up to the number of items and, from 100 items on, 500 (which may exceed the number of items). -/
theorem mem_limits {n l : Nat} : l ∈ limits n ↔ (∃ e, l = 10 ^ e ∧ l ≤ n) ∨ (l = 500 ∧ 100 ≤ n) := by
  unfold limits
  rw [mem_limitsFrom (by omega) (by omega)]
  simp only [Nat.one_mul]
  constructor
  · rintro (h | ⟨h1, -, h2⟩)
    · exact Or.inl h
    · exact Or.inr ⟨h1, h2⟩
  · rintro (h | ⟨h1, h2⟩)
    · exact Or.inl h
    · exact Or.inr ⟨h1, ⟨2, by norm_num⟩, h2⟩

theorem pow_ne_500 {i e : Nat} (hi : ∃ a, i = 10 ^ a) : i * 10 ^ e ≠ 500 := by
  obtain ⟨a, rfl⟩ := hi
  rw [← Nat.pow_add]
  intro h
  by_cases h3 : a + e < 3
  · have : a + e = 0 ∨ a + e = 1 ∨ a + e = 2 := by omega
    rcases this with h' | h' | h' <;> rw [h'] at h <;> norm_num at h
  · have := Nat.pow_le_pow_right (show 0 < 10 by norm_num) (show 3 ≤ a + e by omega)
    omega

theorem limitsFrom_nodup {n : Nat} : ∀ {fuel i : Nat}, (∃ a, i = 10 ^ a) → n < fuel + i → (limitsFrom n fuel i).Nodup := by
  intro fuel
  induction fuel with
  | zero => intro i _ _; exact List.nodup_nil
  | succ fuel ih =>
    intro i hi hf
    have hpos : 0 < i := by obtain ⟨a, rfl⟩ := hi; exact Nat.pow_pos (by norm_num)
    have hi' : ∃ a, i * 10 = 10 ^ a := by obtain ⟨a, rfl⟩ := hi; exact ⟨a + 1, (Nat.pow_succ ..).symm⟩
    unfold limitsFrom
    split
    · rw [List.cons_append, List.nodup_cons, List.mem_append, List.nodup_append]
      refine ⟨?_, ?_, ih hi' (by omega), ?_⟩
      · rintro (h | h)
        · split at h
          · simp at h; omega
          · simp at h
        · rw [mem_limitsFrom (by omega) (by omega)] at h
          rcases h with ⟨e, h1, -⟩ | ⟨h1, -⟩
          · have := Nat.le_mul_of_pos_right (i * 10) (Nat.pow_pos (n := e) (show 0 < 10 by norm_num))
            omega
          · exact pow_ne_500 (e := 0) hi (by simpa using h1)
      · split <;> simp
      · intro a ha b hb e
        split at ha
        · next h100 =>
          have ha' : a = 500 := by simpa using ha
          rw [mem_limitsFrom (by omega) (by omega)] at hb
          rcases hb with ⟨e', h1, -⟩ | ⟨-, ⟨e', h1⟩, -⟩
          · exact pow_ne_500 hi' (e := e') (by omega)
          · have := Nat.le_mul_of_pos_right (i * 10) (Nat.pow_pos (n := e') (show 0 < 10 by norm_num))
            omega
        · simp at ha
    · exact List.nodup_nil

theorem limits_nodup (n : Nat) : (limits n).Nodup := limitsFrom_nodup ⟨0, by simp⟩ (by omega)

/-! ## The rounds -/

variable {c : Cfg}

theorem intersection_length {sortIds : List Nat → List Nat} (h1 : ∀ l, (sortIds l).Perm l) (h2 : ∀ l, (sortIds l).Pairwise (· ≤ ·))
    {near a top : List Nat} (hp : a.Perm near) (hn : near.Nodup) : (intersection sortIds a top).1.length = found near top := by
  obtain ⟨hc, -⟩ := C42_intersection h1 h2 a top
  refine List.Perm.length_eq (List.perm_iff_count.2 fun x => ?_)
  rw [hc, hp.count_eq]
  by_cases hx : x ∈ near
  · have e1 : near.count x = 1 := List.count_eq_one_of_mem hn hx
    by_cases ht : x ∈ top
    · have e2 : 0 < top.count x := List.count_pos_iff.2 ht
      rw [List.count_filter (by simpa using ht)]
      omega
    · have e2 : (near.filter (· ∈ top)).count x = 0 := List.count_eq_zero_of_not_mem (by simp [ht])
      have e3 : top.count x = 0 := List.count_eq_zero_of_not_mem ht
      omega
  · have e2 : (near.filter (· ∈ top)).count x = 0 := List.count_eq_zero_of_not_mem (by simp [hx])
    have e3 : near.count x = 0 := List.count_eq_zero_of_not_mem hx
    omega

theorem pass_spec (h1 : ∀ l, (c.sortIds l).Perm l) (h2 : ∀ l, (c.sortIds l).Pairwise (· ≤ ·)) {fuel : Nat} {w : World} {s : Idx c} {k j : Nat}
    {near : List Nat} (hn : near.Nodup) : ∀ {ls : List Nat} {closest : List Nat} {sums sums' : Sums} {ctx ctx' : Ctx c}, ls.Nodup →
    closest.Perm near → pass fuel w s k j ls closest sums ctx = .ok (sums', ctx') →
    ∃ tops : Nat → List Nat, (∀ l ∈ ls, Answers fuel w s j l (tops l)) ∧
      ∀ l, sums' l = if l ∈ ls then f64.add (sums l) (rate k (found near (tops l))) else sums l := by
  intro ls
  induction ls with
  | nil =>
    intro closest sums sums' ctx ctx' _ _ h
    cases h
    exact ⟨fun _ => [], by simp, by simp⟩
  | cons limit ls ih =>
    intro closest sums sums' ctx ctx' hnd hp h
    obtain ⟨hn1, hn2⟩ := List.nodup_cons.1 hnd
    simp only [pass] at h
    cases hs : s.getNnsByItem fuel w j limit (-1) ctx with
    | error e => rw [hs] at h; cases h
    | ok r =>
      obtain ⟨top, ds, ctx1⟩ := r
      rw [hs] at h
      obtain ⟨tops, t1, t2⟩ := ih hn2 ((h1 closest).trans hp) h
      refine ⟨fun l => if l = limit then top else tops l, fun l hl => ?_, fun l => ?_⟩
      · show Answers fuel w s j l (if l = limit then top else tops l)
        split
        · next e => subst e; exact ⟨ctx, ds, ctx1, hs⟩
        · next e => exact t1 l (by simpa [e] using hl)
      · rw [t2 l]
        by_cases e : l = limit
        · subst e
          rw [if_neg hn1, if_pos rfl, if_pos (by simp)]
          show f64.add (sums l) (rate k _) = f64.add (sums l) (rate k (found near (if l = l then top else tops l)))
          rw [if_pos rfl, ← intersection_length h1 h2 hp hn]
        · show (if l ∈ ls then f64.add (if l = limit then _ else sums l) _ else if l = limit then _ else sums l) =
            if l ∈ limit :: ls then f64.add (sums l) (rate k (found near (if l = limit then top else tops l))) else sums l
          simp only [if_neg e]
          by_cases hl : l ∈ ls
          · rw [if_pos hl, if_pos (by simp [hl])]
          · rw [if_neg hl, if_neg (by simp [hl, e])]

theorem rounds_spec (h1 : ∀ l, (c.sortIds l).Perm l) (h2 : ∀ l, (c.sortIds l).Pairwise (· ≤ ·)) {R : Rng} (hR : R.InRange) {fuel : Nat}
    {w : World} {s : Idx c} {numItems k : Nat} {near : Nat → List Nat} (hn : ∀ j, (near j).Nodup) (h0 : 0 < numItems)
    (hex : ∀ j, j < numItems → ∀ ctx ids ds ctx', s.getNnsByItem fuel w j k numItems ctx = .ok (ids, ds, ctx') → ids = near j)
    {ls : List Nat} (hls : ls.Nodup) : ∀ {n : Nat} {r : R.σ} {sums sums' : Sums} {ctx : Ctx c},
    rounds R fuel w s numItems k ls n r sums ctx = .ok sums' →
    ∃ log : List (Nat × (Nat → List Nat)), draws R numItems n r = .ok (log.map Prod.fst) ∧
      (∀ e ∈ log, e.1 < numItems ∧ ∀ l ∈ ls, Answers fuel w s e.1 l (e.2 l)) ∧
      ∀ l ∈ ls, sums' l = addRates k (sums l) (log.map fun e => found (near e.1) (e.2 l)) := by
  intro n
  induction n with
  | zero =>
    intro r sums sums' ctx h
    cases h
    exact ⟨[], rfl, by simp, fun l _ => rfl⟩
  | succ n ih =>
    intro r sums sums' ctx h
    obtain ⟨j, r1, hj, hlt⟩ := hR r numItems h0
    simp only [rounds, hj, bind, Except.bind] at h
    cases hs : s.getNnsByItem fuel w j k numItems ctx with
    | error e => rw [hs] at h; cases h
    | ok x =>
      obtain ⟨closest, ds, ctx1⟩ := x
      rw [hs] at h
      dsimp only at h
      cases hp : pass fuel w s k j ls closest sums ctx1 with
      | error e => rw [hp] at h; cases h
      | ok y =>
        obtain ⟨sums1, ctx2⟩ := y
        rw [hp] at h
        have hc := hex j hlt _ _ _ _ hs
        obtain ⟨tops, t1, t2⟩ := pass_spec h1 h2 (hn j) hls (by rw [hc]) hp
        obtain ⟨log, g1, g2, g3⟩ := ih h
        refine ⟨(j, tops) :: log, ?_, ?_, fun l hl => ?_⟩
        · simp only [draws, hj, bind, Except.bind, g1, List.map_cons]
        · intro e he
          rcases List.mem_cons.1 he with rfl | he
          · exact ⟨hlt, t1⟩
          · exact g2 e he
        · rw [g3 l hl]
          show addRates k (sums1 l) _ = _
          rw [t2 l, if_pos hl]
          rfl

theorem compare_self {N : Num} {v : List N.V} (h : ∀ x ∈ v, N.Ordinary x) : compare N v v = .ok () := by
  induction v with
  | nil => rfl
  | cons x v ih =>
    unfold compare
    rw [if_pos (show N.eq x x = true from h x (by simp))]
    exact ih fun y hy => h y (by simp [hy])

/-- The comparison goes through exactly for vectors that are long enough and equal, component by component. -/
theorem compare_iff {N : Num} {v x : List N.V} : compare N v x = .ok () ↔
    v.length ≤ x.length ∧ ∀ (j : Nat) (a b : N.V), v[j]? = some a → x[j]? = some b → N.eq a b = true := by
  induction v generalizing x with
  | nil => simp [compare]
  | cons a v ih =>
    cases x with
    | nil => simp [compare]
    | cons b x =>
      unfold compare
      by_cases h : N.eq a b = true
      · rw [if_pos h, ih]
        constructor
        · rintro ⟨h1, h2⟩
          refine ⟨by simpa using h1, fun j a' b' => ?_⟩
          cases j with
          | zero => intro e1 e2; cases e1; cases e2; exact h
          | succ j => exact h2 j a' b'
        · rintro ⟨h1, h2⟩
          exact ⟨by simpa using h1, fun j a' b' => h2 (j + 1) a' b'⟩
      · rw [if_neg h]
        constructor
        · intro e; cases e
        · rintro ⟨-, h2⟩
          exact absurd (h2 0 a b rfl rfl) h

/-- **C91**, the comparison: it goes through exactly if `GetItem` returns every vector, component by component equal (Go's `==`: no NaN, zeros of
both signs are equal). -/
theorem C91_verify {w : World} {s : Idx c} {vs : List (List c.N.V)} : verify w s 0 vs = .ok () ↔
    ∀ k v, vs[k]? = some v → ∃ x, s.getItem w k = .ok x ∧ v.length ≤ x.length ∧
      ∀ (j : Nat) (a b : c.N.V), v[j]? = some a → x[j]? = some b → c.N.eq a b = true := by
  have key : ∀ (vs : List (List c.N.V)) (i : Nat), verify w s i vs = .ok () ↔
      ∀ k v, vs[k]? = some v → ∃ x, s.getItem w (i + k) = .ok x ∧ compare c.N v x = .ok () := by
    intro vs
    induction vs with
    | nil => intro i; simp [verify]
    | cons v vs ih =>
      intro i
      unfold verify
      cases hg : s.getItem w i with
      | error e =>
        constructor
        · intro h; cases h
        · intro h
          obtain ⟨x, h1, -⟩ := h 0 v rfl
          rw [Nat.add_zero, hg] at h1
          cases h1
      | ok x =>
        show (compare c.N v x >>= fun _ => verify w s (i + 1) vs) = _ ↔ _
        cases hcmp : compare c.N v x with
        | error e =>
          constructor
          · intro h; cases h
          · intro h
            obtain ⟨x', h1, h2⟩ := h 0 v rfl
            rw [Nat.add_zero, hg] at h1
            cases h1
            rw [hcmp] at h2
            cases h2
        | ok u =>
          show verify w s (i + 1) vs = _ ↔ _
          rw [ih]
          constructor
          · intro h k v' hk
            cases k with
            | zero => cases hk; exact ⟨x, hg, hcmp⟩
            | succ k =>
              have := h k v' (by simpa using hk)
              rwa [show i + 1 + k = i + (k + 1) by omega] at this
          · intro h k v' hk
            have := h (k + 1) v' (by simpa using hk)
            rwa [show i + (k + 1) = i + 1 + k by omega] at this
  rw [key vs 0]
  simp only [Nat.zero_add, compare_iff]

theorem verify_ok {w : World} {s : Idx c} : ∀ {vs : List (List c.N.V)} {i : Nat}, (∀ v ∈ vs, ∀ x ∈ v, c.N.Ordinary x) →
    (∀ k v, vs[k]? = some v → s.getItem w (i + k) = .ok v) → verify w s i vs = .ok () := by
  intro vs
  induction vs with
  | nil => intro i _ _; rfl
  | cons v vs ih =>
    intro i ho hg
    unfold verify
    rw [show s.getItem w i = .ok v from hg 0 v rfl]
    show (compare c.N v v >>= fun _ => verify w s (i + 1) vs) = _
    rw [compare_self (ho v (by simp))]
    exact ih (fun u hu => ho u (by simp [hu])) fun k u hk => by
      have := hg (k + 1) u (by simpa using hk)
      rwa [show i + (k + 1) = i + 1 + k by omega] at this

/-! ## The items of the program -/

/-- The calls of `AddItem` (main.go:97-101): vector `i` for item `i`. -/
def numbered {V : Type} (vs : List (List V)) : List (Nat × List V) := vs.zipIdx.map fun p => (p.2, p.1)

theorem lastAdded_numbered {V : Type} (vs : List (List V)) (i : Nat) : lastAdded (numbered vs) i = vs[i]? := by
  induction vs using List.reverseRecOn with
  | nil => rfl
  | append_singleton vs v ih =>
    unfold numbered at ih ⊢
    rw [List.zipIdx_append, List.map_append, lastAdded_append, ih]
    simp only [List.zipIdx_singleton, List.map_cons, List.map_nil, lastAdded, List.reverse_singleton, List.find?_singleton]
    by_cases h : vs.length = i
    · subst h; simp
    · simp only [Nat.zero_add, h, decide_false, Bool.false_eq_true, if_false, Option.map_none, Option.none_or]
      rw [List.getElem?_append]
      split
      · rfl
      · rw [List.getElem?_eq_none (by omega), List.getElem?_eq_none (by simp; omega)]

theorem slotCount_numbered {V : Type} (vs : List (List V)) : slotCount (numbered vs) = vs.length := by
  have key : ∀ (vs : List (List V)) (i : Nat), (vs.zipIdx i).foldr (fun p n => max (p.2 + 1) n) 0 = if vs = [] then 0 else i + vs.length := by
    intro vs
    induction vs with
    | nil => intro i; rfl
    | cons v vs ih =>
      intro i
      rw [List.zipIdx_cons, List.foldr_cons, ih]
      by_cases h : vs = []
      · subst h; simp
      · rw [if_neg h, if_neg (by simp), List.length_cons]
        have := List.length_pos_iff.2 h
        show max (i + 1) _ = _
        omega
  unfold slotCount numbered
  rw [List.foldr_map]
  refine (key vs 0).trans ?_
  split
  · next h => rw [h]; rfl
  · omega

theorem addedIds_numbered {V : Type} (vs : List (List V)) : addedIds (numbered vs) = List.range vs.length := by
  show liveOf _ _ = _
  unfold liveOf
  rw [slotCount_numbered, List.filter_eq_self]
  intro i hi
  rw [lastAdded_numbered, List.getElem?_eq_getElem (List.mem_range.1 hi)]
  rfl

/-! ## C91 -/

theorem some_of_lt {α : Type} {l : List α} {i : Nat} (h : i < l.length) : (l[i]?).isSome := by
  rw [List.getElem?_eq_getElem h]; rfl

theorem nearest_prefix {N : Num} {δ : Nat → N.V} {S : List Nat} {k l : Nat} (h : k ≤ l) {i : Nat} (hi : i ∈ nearest N δ S k) :
    i ∈ nearest N δ S l := by
  unfold nearest at *
  exact (List.take_sublist_take_left h).subset hi

theorem nearest_length {N : Num} {δ : Nat → N.V} {S : List Nat} {k : Nat} : (nearest N δ S k).length = min k S.length := by
  simp [nearest, (scan_perm N δ S).length_eq]

theorem nearest_nodup {N : Num} {δ : Nat → N.V} {S : List Nat} {k : Nat} (h : S.Nodup) : (nearest N δ S k).Nodup :=
  ((scan_perm N δ S).nodup_iff.2 h).sublist (List.take_sublist _ _)

/-- The `k` nearest neighbours of item `j` among the vectors `vs`, by a linear scan with the distances of the code. -/
noncomputable def neighbours (c : Cfg) (vs : List (List c.N.V)) (k j : Nat) : List Nat :=
  nearest c.N (itemDist c (vs[·]?) (vs[j]?.getD [])) (List.range vs.length) k

/-- What the program reports, given `precN` rounds: for each limit `l`, up to rounding, the average – over the items drawn – of the share of
the `k` nearest neighbours that a default search for `l` neighbours finds; it is between 0 and 1.  -/
def ReportOk {c : Cfg} (R : Rng) (r : R.σ) (fuel : Nat) (w : World) (y : Idx c) (vs : List (List c.N.V)) (k precN : Nat)
    (rep : List (Nat × Nat)) : Prop :=
  rep.map Prod.fst = limits vs.length ∧
  ∃ log : List (Nat × (Nat → List Nat)), draws R vs.length precN r = .ok (log.map Prod.fst) ∧
    (∀ e ∈ log, ∀ l ∈ limits vs.length, Answers fuel w y e.1 l (e.2 l)) ∧
    ∀ lp ∈ rep, f64.Finite lp.2 ∧ 0 ≤ f64.real lp.2 ∧ f64.real lp.2 ≤ 1 ∧
      |f64.real lp.2 - (log.map fun e => (found (neighbours c vs k e.1) (e.2 lp.1) : ℝ) / k).sum / precN| ≤ (precN + 5) / 2 ^ 53

/-- Searches by items with a budget of the number of items are exact. -/
def ExactByItem {c : Cfg} (w : World) (y : Idx c) (vs : List (List c.N.V)) : Prop :=
  ∀ (k : Nat) (b : Int), (vs.length : Int) ≤ (if b = -1 then (k : Int) * y.roots.length else b) → ∀ j, j < vs.length →
    ∀ fuel ctx ids ds ctx', y.getNnsByItem fuel w j k b ctx = .ok (ids, ds, ctx') → ids = neighbours c vs k j

theorem report_spec {vs : List (List c.N.V)} {w : World} {y : Idx c} (h1 : ∀ l, (c.sortIds l).Perm l)
    (h2 : ∀ l, (c.sortIds l).Pairwise (· ≤ ·)) (h0 : 0 < vs.length) (hver : verify w y 0 vs = .ok ()) (hexact : ExactByItem w y vs)
    {R' : Rng} (hR' : R'.InRange) {r : R'.σ} {fuel k precN : Nat} (hk : 0 < k) (hkb : k ≤ 2 ^ 53) (hp : 0 < precN) (hpb : precN ≤ 2 ^ 53)
    {rep : List (Nat × Nat)} (hrep : report R' r fuel w y vs k precN = .ok rep) :
    ReportOk R' r fuel w y vs k precN rep ∧
    ∀ lp ∈ rep, k ≤ vs.length → k ≤ lp.1 → vs.length ≤ lp.1 * y.roots.length → f64.real lp.2 = 1 := by
  unfold report at hrep
  rw [hver] at hrep
  simp only [bind, Except.bind] at hrep
  cases hro : rounds R' fuel w y vs.length k (limits vs.length) precN r (fun _ => 0) y.createContext with
  | error e => rw [hro] at hrep; cases hrep
  | ok sums =>
    rw [hro] at hrep
    cases hrep
    obtain ⟨log, g1, g2, g3⟩ := rounds_spec h1 h2 hR'
      (near := neighbours c vs k) (fun j => nearest_nodup List.nodup_range) h0
      (fun j hj ctx ids ds ctx' hr => hexact k vs.length (by rw [if_neg (by omega)]) j hj fuel ctx ids ds ctx' hr) (limits_nodup _) hro
    have hlen : log.length = precN := by
      have : ∀ (m : Nat) (r : R'.σ) (l : List Nat), draws R' vs.length m r = .ok l → l.length = m := by
        intro m
        induction m with
        | zero => intro r l hl; cases hl; rfl
        | succ m ih =>
          intro r l hl
          obtain ⟨j, r1, hj, -⟩ := hR' r vs.length (by omega)
          simp only [draws, hj, bind, Except.bind] at hl
          cases hd : draws R' vs.length m r1 with
          | error e => rw [hd] at hl; cases hl
          | ok l' =>
            rw [hd] at hl
            cases hl
            rw [List.length_cons, ih r1 l' hd]
      have := this _ _ _ g1
      simpa using this
    suffices key : ∀ lp ∈ (limits vs.length).map fun l => (l, f64.div (sums l) (f64.ofNat precN)),
        f64.Finite lp.2 ∧ 0 ≤ f64.real lp.2 ∧ f64.real lp.2 ≤ 1 ∧
        |f64.real lp.2 - (log.map fun e => (found (neighbours c vs k e.1) (e.2 lp.1) : ℝ) / k).sum / precN| ≤ (precN + 5) / 2 ^ 53 ∧
        (k ≤ vs.length → k ≤ lp.1 → vs.length ≤ lp.1 * y.roots.length → f64.real lp.2 = 1) by
      exact ⟨⟨by simp [Function.comp_def], log, g1, fun e he => (g2 e he).2, fun lp hlp =>
        ⟨(key lp hlp).1, (key lp hlp).2.1, (key lp hlp).2.2.1, (key lp hlp).2.2.2.1⟩⟩, fun lp hlp => (key lp hlp).2.2.2.2⟩
    intro lp hlp
    obtain ⟨l, hl, rfl⟩ := List.mem_map.1 hlp
    dsimp only
    rw [g3 l hl]
    set hs' := log.map fun e => found (neighbours c vs k e.1) (e.2 l) with hhs
    have hl' : hs'.length = precN := by rw [hhs, List.length_map, hlen]
    have hle : ∀ a ∈ hs', a ≤ k := by
      intro a ha
      obtain ⟨e, he, rfl⟩ := List.mem_map.1 ha
      refine (found_le _ _).trans ?_
      unfold neighbours
      rw [nearest_length]
      exact Nat.min_le_left _ _
    obtain ⟨a1, a2, a3, a4, a5⟩ := average_spec hk hkb (hs := hs') (by intro e; rw [e] at hl'; simp at hl'; omega) (by omega) hle
    rw [hl'] at a1 a2 a3 a4 a5
    refine ⟨a1, a2, a3, ?_, fun c1 c2 c3 => a5 fun a ha => ?_⟩
    · rw [hhs, List.map_map] at a4
      exact a4
    · obtain ⟨e, he, rfl⟩ := List.mem_map.1 ha
      obtain ⟨e1, e2⟩ := g2 e he
      obtain ⟨ctx, ds, ctx', hr⟩ := e2 l hl
      have := hexact l (-1) (by rw [if_pos rfl]; exact_mod_cast c3) e.1 e1 fuel ctx _ ds ctx' hr
      rw [found_all fun i hi => by rw [this]; exact nearest_prefix c2 hi]
      unfold neighbours
      rw [nearest_length, List.length_range]
      omega

/-- Searches by item, in contexts with room for all items of all trees, return an answer. -/
def AnswersAll (w : World) (y : Idx c) (vs : List (List c.N.V)) (F : Nat) : Prop :=
  ∀ j, j < vs.length → ∀ (k b : Int) (ctx : Ctx c) (fuel : Nat), F ≤ fuel → y.roots.length * vs.length ≤ ctx.nns.length →
    ∃ x, y.getNnsByItem fuel w j k b ctx = .ok x

theorem byItem_room (h1 : ∀ l, (c.sortIds l).Perm l) {w : World} {y : Idx c} {fuel j : Nat} {k b : Int} {ctx ctx' : Ctx c} {ids : List Nat} {ds : List c.N.V}
    (h : y.getNnsByItem fuel w j k b ctx = .ok (ids, ds, ctx')) : ctx'.nns.length = ctx.nns.length := by
  unfold Idx.getNnsByItem at h
  cases ha : getNode c.L (y.mem w) j with
  | error e => simp only [ha, bind, Except.bind] at h; cases h
  | ok a =>
    simp only [ha, bind, Except.bind, Idx.getNnsByVector, Search.run] at h
    generalize (if b = -1 then k * (y.roots.length : Int) else b) = bud at h
    cases hl : Search.loop c (y.mem w) y.nItems (Node.vec c.L c.C (y.mem w).get a) bud fuel (Search.initQueue c y.roots) ctx.nns 0 with
    | error e => rw [hl] at h; cases h
    | ok z =>
      obtain ⟨buf, cnt⟩ := z
      rw [hl] at h
      dsimp only at h
      split at h
      · cases h
      · next hcnt =>
        split at h
        · cases h
        · split at h
          · cases h
          · cases h
            have := Annoy.ConcSearch.loop_length hl
            simp only [List.length_append, (h1 _).length_eq, List.length_take, List.length_drop]
            omega

theorem pass_ends (h1 : ∀ l, (c.sortIds l).Perm l) {vs : List (List c.N.V)} {w : World} {y : Idx c} {F fuel k j : Nat} (hA : AnswersAll w y vs F)
    (hf : F ≤ fuel) (hj : j < vs.length) : ∀ (ls closest : List Nat) (sums : Sums) (ctx : Ctx c), y.roots.length * vs.length ≤ ctx.nns.length →
    ∃ sums' ctx', pass fuel w y k j ls closest sums ctx = .ok (sums', ctx') ∧ ctx'.nns.length = ctx.nns.length := by
  intro ls
  induction ls with
  | nil => exact fun closest sums ctx _ => ⟨sums, ctx, rfl, rfl⟩
  | cons l ls ih =>
    intro closest sums ctx hr
    obtain ⟨⟨ids, ds, ctx1⟩, h2⟩ := hA j hj l (-1) ctx fuel hf hr
    have h3 := byItem_room h1 h2
    simp only [pass, h2, bind, Except.bind]
    obtain ⟨s', c', h4, h5⟩ := ih _ _ ctx1 (by rw [h3]; exact hr)
    exact ⟨s', c', h4, h5.trans h3⟩

theorem rounds_ends (h1 : ∀ l, (c.sortIds l).Perm l) {vs : List (List c.N.V)} {w : World} {y : Idx c} {F fuel k : Nat} (hA : AnswersAll w y vs F)
    (hf : F ≤ fuel) {R' : Rng} (hR' : R'.InRange) (h0 : 0 < vs.length) (ls : List Nat) : ∀ (m : Nat) (r : R'.σ) (sums : Sums) (ctx : Ctx c),
    y.roots.length * vs.length ≤ ctx.nns.length → ∃ sums', rounds R' fuel w y vs.length k ls m r sums ctx = .ok sums' := by
  intro m
  induction m with
  | zero => exact fun r sums ctx _ => ⟨sums, rfl⟩
  | succ m ih =>
    intro r sums ctx hr
    obtain ⟨j, r1, hj, hlt⟩ := hR' r vs.length h0
    obtain ⟨⟨ids, ds, ctx1⟩, h2⟩ := hA j hlt k vs.length ctx fuel hf hr
    have h3 := byItem_room h1 h2
    obtain ⟨s', c', h4, h5⟩ := pass_ends h1 (k := k) hA hf hlt ls ids sums ctx1 (by rw [h3]; exact hr)
    simp only [rounds, hj, h2, h4, bind, Except.bind]
    exact ih _ _ _ (by rw [h5, h3]; exact hr)

/-- The program comes to its end if contexts have room for all items of all trees. -/
theorem report_ends (h1 : ∀ l, (c.sortIds l).Perm l) {vs : List (List c.N.V)} {w : World} {y : Idx c} {F fuel : Nat} (hA : AnswersAll w y vs F)
    (hf : F ≤ fuel) {R' : Rng} (hR' : R'.InRange) (h0 : 0 < vs.length) (hver : verify w y 0 vs = .ok ())
    (hroom : y.roots.length * vs.length ≤ y.createContext.nns.length) (r : R'.σ) (k precN : Nat) :
    ∃ rep, report R' r fuel w y vs k precN = .ok rep := by
  obtain ⟨sums, h⟩ := rounds_ends h1 (k := k) hA hf hR' h0 (limits vs.length) precN r (fun _ => 0) y.createContext hroom
  exact ⟨_, by simp only [report, hver, h, bind, Except.bind]; rfl⟩

theorem saved_exact {numCPU : Nat} {pol : BuildPolicy} {trees workers : Int} {vs : List (List c.N.V)} {s s' : Idx c}
    (h : Session c numCPU pol (numbered vs) trees workers s s') (hk : c.N.KeyLaws) (hM : MinKeys c)
    (hs : SplitsKept c numCPU pol vs.length trees workers) (hck : c.L.CountKept vs.length) (hcp : c.L.CopiesKept vs.length)
    (hroots : s'.roots ≠ []) (h2 : 2 ≤ vs.length) {w : World} {path : String} (hcr : w.creatable path = true) (bk : Backend)
    (hord : ∀ v ∈ vs, ∀ a ∈ v, c.N.Ordinary a) (hgood : ∀ v ∈ vs, GoodQuery c v) (hfin : ∀ v ∈ vs, FiniteMargins s' w v)
    (hdist : ∀ v ∈ vs, ∀ i, i < vs.length → c.N.Ordinary (itemDist c (vs[·]?) v i)) :
    ∃ y w', s'.save bk w path = .ok (.nil, y, w') ∧ verify w' y 0 vs = .ok () ∧ ExactByItem w' y vs ∧ s'.roots.length ≤ y.roots.length ∧
      (c.N.Lawful → ∃ F, AnswersAll w' y vs F) := by
  have hlast : lastAdded (numbered vs) = (vs[·]?) := funext (lastAdded_numbered vs)
  have hslot := slotCount_numbered vs
  have hids := addedIds_numbered vs
  rw [← hslot] at hs hck hcp
  obtain ⟨y, w', hsave, hfile, hsame, hloads⟩ := C27_save_load_partial h (by omega) hroots hck bk w path hcr
  have hload : ∃ x : Idx c, x.load bk w' path = .ok (.nil, y) := by
    unfold Idx.save at hsave
    split at hsave
    · cases hsave
    · split at hsave
      · cases hsave
      · next i w1 hc =>
        cases hb : s'.saveBytes w1 with
        | error e => simp only [hb, bind, Except.bind] at hsave; cases hsave
        | ok o =>
          simp only [hb, bind, Except.bind] at hsave
          cases o with
          | none => cases hsave
          | some bytes =>
            dsimp only at hsave
            cases hl : s'.load bk (w1.write i bytes) path with
            | error e => rw [hl] at hsave; cases hsave
            | ok z =>
              obtain ⟨e, z⟩ := z
              rw [hl] at hsave
              cases hsave
              exact ⟨s', hl⟩
  obtain ⟨x, hl⟩ := hload
  obtain ⟨N0, B, _⟩ := h.built
  have hitem : ∀ j v, vs[j]? = some v → y.getItem w' j = .ok v := by
    intro j v hj
    have hj' : lastAdded (numbered vs) j = some v := by rw [lastAdded_numbered]; exact hj
    rw [hsame.getItem j (by rw [B.nItems]; exact B.bound j v hj')]
    exact B.getItem w hj'
  refine ⟨y, w', hsave, verify_ok hord fun k v hk => by rw [Nat.zero_add]; exact hitem k v hk, ?_, ?_, fun hN => ?_⟩
  rotate_left
  · have hR := (C29_roots_partial h (by omega) hroots hck hs hcp hfile hl).1
    have hsub : List.range' (s'.nNodes - s'.roots.length) s'.roots.length ⊆ y.roots := by
      intro i hi
      rw [List.mem_range'_1] at hi
      have := B.nNodes
      exact hR i (by omega) (by omega)
    have := (List.subperm_of_subset List.nodup_range' hsub).length_le
    simpa using this
  · obtain ⟨F, hF⟩ := C20_answers_loaded_partial h hN (by omega) hroots hck hs hcp hfile hl
    refine ⟨F, fun j hj k b ctx fuel hf hroom => ?_⟩
    rw [C24_by_item, hitem j _ (List.getElem?_eq_getElem hj)]
    exact hF _ (hgood _ (List.getElem_mem hj)) k b ctx fuel hf (by rw [hslot]; exact hroom)
  intro k b hb j hj fuel ctx ids ds ctx' hr
  have hjv : vs[j]? = some vs[j] := List.getElem?_eq_getElem hj
  rw [C24_by_item, hitem j _ hjv] at hr
  have hm := List.getElem_mem hj
  have := (h.C86_items_suffice_loaded (by omega) hroots hck hs hcp hk hM hfile hl (hgood _ hm)
    (h.finiteBelow_loaded (by omega) hroots hck hs hcp hfile hl (hfin _ hm)) (by rw [hids, List.length_range]; exact hb) hr).2
    (by rw [hids, hlast]; exact fun i hi => hdist _ hm i (List.mem_range.1 hi))
  rw [this, hids, hlast]
  unfold neighbours
  rw [hjv]
  rfl

section
variable {R : Rng} {sI : List Nat → List Nat} {ix n numCPU : Nat} {pol : BuildPolicy} {trees workers : Int}

/-- **C91 for `float32`** (as in the program): an angular index with at least `3 * sizeof(TIX)` and at most `2^17` components per vector, at
least two items of moderate norm and at least one tree, whatever the schedule of the build.  If the file can be created, then
`Save` succeeds and the comparison of the vectors does not panic; and whenever the program comes to its end, the reported
precisions are the average shares of real neighbours found (`ReportOk`).  A limit `l ≥ k` with `l * trees ≥ items` is reported as exactly 1.
It does come to its end if contexts have room for the items of all trees. -/
theorem C91_float32 {sP : List (ieee32.V × Nat) → List (ieee32.V × Nat)} {vs : List (List ieee32.V)}
    {s s' : Idx (angularCfg ieee32 (bvCodec 4) R sI sP ix n)}
    (h : Session (angularCfg ieee32 (bvCodec 4) R sI sP ix n) numCPU pol (numbered vs) trees workers s s')
    (hix : 3 * ix ≤ n) (hn : n ≤ 2 ^ 17) (hv : ∀ v ∈ vs, Moderate32 n v) (hroots : s'.roots ≠ []) (h2 : 2 ≤ vs.length)
    (hcp : (angularCfg ieee32 (bvCodec 4) R sI sP ix n).L.CopiesKept vs.length) {w : World} {path : String}
    (hcr : w.creatable path = true) (bk : Backend) :
    ∃ y w', s'.save bk w path = .ok (.nil, y, w') ∧ verify w' y 0 vs = .ok () ∧
    (∀ (R' : Rng) (_ : R'.InRange) (r : R'.σ) (fuel k precN : Nat) (_ : 0 < k) (_ : k ≤ 2 ^ 53) (_ : 0 < precN) (_ : precN ≤ 2 ^ 53)
      (rep : List (Nat × Nat)), report R' r fuel w' y vs k precN = .ok rep →
      ReportOk R' r fuel w' y vs k precN rep ∧
      ∀ lp ∈ rep, k ≤ vs.length → k ≤ lp.1 → vs.length ≤ lp.1 * s'.roots.length → f64.real lp.2 = 1) ∧
    (y.roots.length * vs.length ≤ y.createContext.nns.length → ∃ F, ∀ (R' : Rng) (_ : R'.InRange) (r : R'.σ) (fuel k precN : Nat),
      F ≤ fuel → ∃ rep, report R' r fuel w' y vs k precN = .ok rep) := by
  have hpos : 0 < ix := h.wf.layout.szIX_pos
  have hmod : ∀ i v, lastAdded (numbered vs) i = some v → Moderate32 n v := fun i v hi => hv v (by
    rw [lastAdded_numbered] at hi
    exact List.mem_of_getElem? hi)
  obtain ⟨y, w', h3, h4, h5, h6, h7⟩ := saved_exact h ieee32_keyLaws angular_minKeys (slotCount_numbered vs ▸ splitsKept_of_length h.wf hix h.fits)
    (slotCount_numbered vs ▸ h.countKept (show ix ≤ n by omega)) hcp hroots h2 hcr bk
    (fun v hm a ha => (arith32 hn).approx.ordinary _ ((hv v hm).finite a ha))
    (fun v hm => ⟨(hv v hm).length, angular_marginOk (hv v hm).length (by omega)⟩) (fun v hm => margins32 h hix hn hmod (hv v hm) w)
    (fun v hm i hi => (arith32 hn).approx.ordinary _ ((arith32 hn).itemDist h.wf (hv v hm)
      (some_of_lt hi) fun u hu => hv u (List.mem_of_getElem? hu)).1)
  refine ⟨y, w', h3, h4, fun R' hR' r fuel k precN hk hkb hp hpb rep hrep => ?_, fun hroom => ?_⟩
  swap
  · obtain ⟨F, hF⟩ := h7 ieee32_lawful
    exact ⟨F, fun R' hR' r fuel k precN hf => report_ends h.wf.sortIds_perm hF hf hR' (Nat.lt_of_lt_of_le Nat.two_pos h2) h4 hroom r k precN⟩
  obtain ⟨g1, g2⟩ := report_spec h.wf.sortIds_perm h.wf.sortIds_sorted (Nat.lt_of_lt_of_le Nat.two_pos h2) h4 h5 hR' hk hkb hp hpb hrep
  exact ⟨g1, fun lp hlp c1 c2 c3 => g2 lp hlp c1 c2 (c3.trans (Nat.mul_le_mul_left _ h6))⟩
end

/-- The hypotheses of C91 are met by an index of two items with two trees; the program, asked for one neighbour, ends and reports the
precision 1 for its only limit. -/
example : ∃ s s', Session (angular32 4 12) 1 .single (numbered [longVec 0, longVec 20]) 2 1 s s' ∧
    (∀ v ∈ [longVec 0, longVec 20], Moderate32 12 v) ∧ s'.roots.length = 2 ∧ (angular32 4 12).L.CopiesKept 2 ∧
    ∃ y w', s'.save .mmap (oneFile "x" []) "x" = .ok (.nil, y, w') ∧ y.roots.length * 2 ≤ y.createContext.nns.length ∧
      ∃ fuel p, report (kiss32Rng 32) (Kiss32.new 7) fuel w' y [longVec 0, longVec 20] 1 5 = .ok [(1, p)] ∧ f64.real p = 1 := by
  obtain ⟨s, s', h, hp⟩ := made_with (c := angular32 4 12) (r := Kiss32.new 0) (adds := numbered [longVec 0, longVec 20]) (trees := 2)
    (fun s' => decide (s'.roots.length = 2) && (match s'.save .mmap (oneFile "x" []) "x" with
      | .ok (.nil, y, _) => decide (y.roots.length * 2 ≤ y.createContext.nns.length)
      | _ => false))
    (angular32_wf (Or.inl rfl) (by decide)) (legalAdds_of (by decide +kernel)) (by decide +kernel) (by decide +kernel)
  rw [Bool.and_eq_true, decide_eq_true_eq] at hp
  obtain ⟨h1, h2⟩ := hp
  have hm : ∀ v ∈ [longVec 0, longVec 20], Moderate32 12 v := by
    intro v hv
    simp only [List.mem_cons, List.not_mem_nil, or_false] at hv
    rcases hv with rfl | rfl
    · exact (farAdds_moderate (i := 0) (by decide +kernel)).1
    · exact (farAdds_moderate (i := 20) (by decide +kernel)).1
  have hcp : (angular32 4 12).L.CopiesKept 2 := Or.inr (by decide +kernel)
  obtain ⟨y, w', e1, e2, e3, e4⟩ := C91_float32 h (by decide) (by decide) hm (by intro e; rw [e] at h1; cases h1) (by decide) hcp
    (w := oneFile "x" []) (path := "x") rfl .mmap
  have hroom : y.roots.length * 2 ≤ y.createContext.nns.length := by
    have : (match (Except.ok (GoErr.nil, y, w') : Except Err (GoErr × Idx (angular32 4 12) × World)) with
      | .ok (.nil, y, _) => decide (y.roots.length * 2 ≤ y.createContext.nns.length)
      | _ => false) = true := e1 ▸ h2
    exact of_decide_eq_true this
  obtain ⟨F, hF⟩ := e4 hroom
  obtain ⟨rep, hrep⟩ := hF (kiss32Rng 32) (kiss32_inRange 32) (Kiss32.new 7) F 1 5 le_rfl
  obtain ⟨g1, g2⟩ := e3 (kiss32Rng 32) (kiss32_inRange 32) (Kiss32.new 7) F 1 5 (by decide) (by norm_num) (by decide) (by norm_num) rep hrep
  have hl : rep.map Prod.fst = [1] := g1.1.trans (by decide)
  refine ⟨s, s', h, hm, h1, hcp, y, w', e1, hroom, F, ?_⟩
  match rep, hl with
  | [(l, p)], hl =>
    simp only [List.map_cons, List.map_nil, List.cons.injEq, and_true] at hl
    subst hl
    exact ⟨p, hrep, g2 (1, p) (by simp) (by decide) le_rfl (by rw [h1]; exact le_rfl)⟩

end Precision
end Annoy
