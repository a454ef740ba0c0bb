import Verif.Proof.ConcRun
import Verif.Proof.ConcTerm
import Verif.Proof.Instances
/-!
Nothing panics: the distance implementations of the repository can always make and test a hyperplane, and a
build with several workers can always be finished.
-/
namespace Annoy

/-- `NextIndex(n)` works and returns an index below `n`. -/
def Rng.InRange (R : Rng) : Prop := ∀ r n, 0 < n → ∃ v r', R.nextIndex r n = .ok (v, r') ∧ v < n

theorem kiss32_inRange (w : Nat) : (kiss32Rng w).InRange := by
  intro r n hn
  refine ⟨(Kiss32.next w r).1 % n, (Kiss32.next w r).2, ?_, Nat.mod_lt _ hn⟩
  show Kiss32.nextIndex w r n = _
  unfold Kiss32.nextIndex
  dsimp only
  exact if_neg (by omega)

theorem oracle_inRange : oracleRng.InRange := by
  intro r n hn
  refine ⟨r 0 % n, fun i => r (i + 1), ?_, Nat.mod_lt _ hn⟩
  exact if_neg (by omega)

section
variable {L : Layout} {N : Num} {R : Rng} {C : Codec N.V}

theorem twoMeansPick_ok (hR : R.InRange) {n : Nat} (hn : 2 ≤ n) (r : R.σ) :
    ∃ i j r', twoMeansPick (R := R) n r = .ok (i, j, r') ∧ i < n ∧ j < n ∧ i ≠ j := by
  obtain ⟨i, r1, h1, hi⟩ := hR r n (by omega)
  obtain ⟨j, r2, h2, hj⟩ := hR r1 (n - 1) (by omega)
  refine ⟨i, if j ≥ i then j + 1 else j, r2, ?_, hi, ?_, ?_⟩
  · unfold twoMeansPick
    simp only [bind, Except.bind, h1, h2]
  · split <;> omega
  · split <;> omega

theorem twoMeansStep_ok (hR : R.InRange) (mem : Bytes) {addrs : List Nat} (hn : 0 < addrs.length)
    (cosine : Bool) (distance : Bytes → Nat → Bytes → Nat → N.V) (initNode : Bytes → Nat → Bytes)
    (st : Bytes × Bytes × N.W × N.W × R.σ) :
    ∃ st', twoMeansStep (L := L) C mem addrs cosine distance initNode st = .ok st' := by
  obtain ⟨p, q, ic, jc, r⟩ := st
  obtain ⟨k, r1, h1, hk⟩ := hR r addrs.length hn
  unfold twoMeansStep
  simp only [bind, Except.bind, h1]
  rw [List.getElem?_eq_getElem hk]
  dsimp only
  repeat' split
  all_goals exact ⟨_, rfl⟩

theorem iterM_ok {σ : Type} (step : σ → Except Err σ) (h : ∀ s, ∃ s', step s = .ok s') (k : Nat) :
    ∀ s, ∃ s', iterM step k s = .ok s' := by
  induction k with
  | zero => intro s; exact ⟨s, rfl⟩
  | succ k ih =>
    intro s
    obtain ⟨s1, h1⟩ := h s
    obtain ⟨s2, h2⟩ := ih s1
    refine ⟨s2, ?_⟩
    unfold iterM
    simp only [bind, Except.bind, h1]
    exact h2

theorem twoMeans_ok (hR : R.InRange) (mem : Bytes) {addrs : List Nat} (hn : 2 ≤ addrs.length) (r : R.σ)
    (cosine : Bool) (distance : Bytes → Nat → Bytes → Nat → N.V)
    (normalize initNode : Bytes → Nat → Bytes) :
    ∃ x, twoMeans (L := L) C mem addrs r cosine distance normalize initNode = .ok x := by
  obtain ⟨i, j, r1, h1, hi, hj, _⟩ := twoMeansPick_ok hR hn r
  unfold twoMeans
  simp only [bind, Except.bind, h1]
  rw [List.getElem?_eq_getElem hi, List.getElem?_eq_getElem hj]
  dsimp only
  obtain ⟨st, h2⟩ := iterM_ok _ (twoMeansStep_ok (L := L) (C := C) hR mem (by omega : 0 < addrs.length) cosine distance initNode) 200
    (initNode (if cosine then normalize (Node.copyNode zeros 0 mem addrs[i] L.f) 0
      else (Node.copyNode zeros 0 mem addrs[i] L.f)) 0,
     initNode (if cosine then normalize (Node.copyNode zeros 0 mem addrs[j] L.f) 0
      else (Node.copyNode zeros 0 mem addrs[j] L.f)) 0, N.oneW, N.oneW, r1)
  rw [h2]
  exact ⟨_, rfl⟩

theorem angular_margin_ok (hf : 0 < L.f) (b : Bytes) (a : Nat) {v : List N.V} (hv : v.length = L.f) :
    ∃ x, Angular.margin (L := L) C b a v = .ok x := by
  unfold Angular.margin
  rw [if_neg (by rw [List.isEmpty_iff]; intro h; subst h; simp at hv; omega), if_neg (by omega)]
  exact ⟨_, rfl⟩

theorem dot_margin_ok (hf : 0 < L.f) (b : Bytes) (a : Nat) {v : List N.V} (hv : v.length = L.f) :
    ∃ x, DotProduct.margin (L := L) C b a v = .ok x := by
  unfold DotProduct.margin
  rw [if_neg (by rw [List.isEmpty_iff]; intro h; subst h; simp at hv; omega), if_neg (by omega)]
  exact ⟨_, rfl⟩

end

namespace Conc

theorem angular_total {N : Num} {C : Codec N.V} {R : Rng} (hR : R.InRange) {sortIds sortP} {k f : Nat}
    (hf : 0 < f) : Total (angularCfg N C R sortIds sortP k f) := by
  constructor
  · intro b addrs r m e h2 he
    obtain ⟨x, hx⟩ := twoMeans_ok (L := angularLayout k C.sz f) (C := C) hR b h2 r true
      (Angular.distance (L := angularLayout k C.sz f) C) (Angular.normalize (L := angularLayout k C.sz f) C)
      (Angular.initNode (L := angularLayout k C.sz f) C)
    have he' : Angular.createSplit (L := angularLayout k C.sz f) (R := R) C b addrs r m = .error e := he
    unfold Angular.createSplit at he'
    simp only [bind, Except.bind, hx] at he'
    cases he'
  · intro m v r e hv he
    have hv' : v.length = f := hv
    have he' : (Angular.margin (L := angularLayout k C.sz f) C m 0 v >>= fun dot =>
      Except.ok (Angular.sideOf (R := R) dot r)) = .error e := he
    obtain ⟨x, hx⟩ := angular_margin_ok (L := angularLayout k C.sz f) (C := C) hf m 0 hv'
    rw [hx] at he'
    cases he'

theorem dot_total {N : Num} {C : Codec N.V} {R : Rng} (hR : R.InRange) {sortIds sortP} {k f : Nat}
    (hf : 0 < f) : Total (dotCfg N C R sortIds sortP k f) := by
  constructor
  · intro b addrs r m e h2 he
    obtain ⟨x, hx⟩ := twoMeans_ok (L := dotLayout k C.sz f) (C := C) hR b h2 r true
      (Angular.distance (L := dotLayout k C.sz f) C) (DotProduct.normalize (L := dotLayout k C.sz f) C)
      (fun b _ => b)
    have he' : DotProduct.createSplit (L := dotLayout k C.sz f) (R := R) C b addrs r m = .error e := he
    unfold DotProduct.createSplit at he'
    simp only [bind, Except.bind, hx] at he'
    cases he'
  · intro m v r e hv he
    have hv' : v.length = f := hv
    have he' : (DotProduct.margin (L := dotLayout k C.sz f) C m 0 v >>= fun dot =>
      Except.ok (Angular.sideOf (R := R) dot r)) = .error e := he
    obtain ⟨x, hx⟩ := dot_margin_ok (L := dotLayout k C.sz f) (C := C) hf m 0 hv'
    rw [hx] at he'
    cases he'

variable {c : Cfg}

/-- The generator has states from which random sides are balanced. -/
def CanBalance (c : Cfg) : Prop := ∀ ids : List Nat, 2 ≤ ids.length → ids.length < c.L.range → ∃ r l rt r',
  Idx.assignSides (c := c) (fun _ r => .ok (c.R.nextSide r)) ids r = .ok (l, rt, r') ∧
  c.le99 l.length rt.length = true

theorem Steps.head {x y z : Conf c} (h : Step x y) (h' : Steps y z) : Steps x z := by
  induction h' with
  | refl => exact .tail (.refl _) h
  | tail _ st ih => exact .tail ih st

theorem Steps.trans {x y z : Conf c} (h : Steps x y) (h' : Steps y z) : Steps x z := by
  induction h' with
  | refl => exact h
  | tail _ st ih => exact .tail ih st

/-- Every execution can be completed. -/
theorem Good.can_finish (hc : c.WF) {P : Par} {d0 : Bytes} {x : Conf c} (hx : Good P d0 x) (ht : P.tot)
    (hb : CanBalance c) : ∃ y, Steps x y ∧ y.Finished := by
  induction x using moves_wf.induction with
  | _ x ih =>
    rcases hx.progress with h | ⟨t, h1, e, h2⟩ | ⟨y, st⟩
    · exact ⟨x, .refl x, h⟩
    · exact absurd h2 (hx.no_fail ht t h1 e)
    · by_cases he : y.ths = x.ths
      · -- draw balanced sides instead
        obtain ⟨t, hm, ids, k, e⟩ := stays st he
        obtain ⟨pre, post, hl⟩ := List.append_of_mem hm
        obtain ⟨ts, pub, ex, I⟩ := hx
        have hm' := hm
        rw [ex] at hm'
        obtain ⟨u, hu, rfl⟩ := List.mem_map.1 hm'
        have S := (I.thr u hu).safe
        dsimp only at e
        rw [e, Safe] at S
        obtain ⟨r, l, rt, r', q1, q2⟩ := hb ids S.2.1.1 S.2.1.2
        have st2 : Step x ⟨{ x.idx with rng := r' }, pre ++ (u.h, k l rt) :: post⟩ := by
          obtain ⟨s, ths⟩ := x
          dsimp only at hl
          subst hl
          rw [e]
          exact Step.mk pre post (.rand r r' q1 q2)
        have hx : Good P d0 x := ⟨ts, pub, ex, I⟩
        obtain ⟨z, z1, z2⟩ := ih _ ⟨st2, by
          rw [hl]
          intro q
          have q := List.append_cancel_left q
          injection q with q _
          injection q with _ q
          have hR : Rest (k l rt) u.p := by rw [e]; exact .rand
          rw [q] at hR
          exact (rest_wf.irrefl.irrefl _) hR⟩ (hx.step hc st2)
        exact ⟨z, Steps.head st2 z1, z2⟩
      · obtain ⟨z, z1, z2⟩ := ih y ⟨st, he⟩ (hx.step hc st)
        exact ⟨z, Steps.head st z1, z2⟩

theorem assignSides_left {side : Nat → c.R.σ → Except Err (Side × c.R.σ)} {j : Nat} {ids l rt : List Nat}
    {r r1 r2 : c.R.σ} (h : side j r = .ok (.left, r1)) (h2 : Idx.assignSides side ids r1 = .ok (l, rt, r2)) :
    Idx.assignSides side (j :: ids) r = .ok (j :: l, rt, r2) := by
  rw [Idx.assignSides]
  simp only [bind, Except.bind, h, h2]

theorem assignSides_right {side : Nat → c.R.σ → Except Err (Side × c.R.σ)} {j : Nat} {ids l rt : List Nat}
    {r r1 r2 : c.R.σ} (h : side j r = .ok (.right, r1)) (h2 : Idx.assignSides side ids r1 = .ok (l, rt, r2)) :
    Idx.assignSides side (j :: ids) r = .ok (l, j :: rt, r2) := by
  rw [Idx.assignSides]
  simp only [bind, Except.bind, h, h2]

/-- Sides taken from the stream `b, b+1, b+2, …` alternate. -/
theorem assignSides_alternating {N : Num} {C : Codec N.V} {sortIds sortP} {k f : Nat} (ids : List Nat) :
    ∀ b : Nat, ∃ l rt r',
    Idx.assignSides (c := angularCfg N C oracleRng sortIds sortP k f)
      (fun _ r => .ok (oracleRng.nextSide r)) ids (fun i => i + b) = .ok (l, rt, r') ∧
    l.length = (ids.length + b % 2) / 2 ∧ rt.length = (ids.length + (b + 1) % 2) / 2 := by
  induction ids with
  | nil => intro b; exact ⟨[], [], _, rfl, by simp, by simp⟩
  | cons j ids ih =>
    intro b
    obtain ⟨l, rt, r', h1, h2, h3⟩ := ih (b + 1)
    have hs : (fun i => (fun i => i + b) (i + 1)) = fun i => i + (b + 1) := by funext i; dsimp only; omega
    have hb : (0 + b) &&& 1 = b % 2 := by rw [Nat.zero_add]; exact Nat.and_one_is_mod b
    by_cases ho : b % 2 = 1
    · refine ⟨j :: l, rt, r', ?_, by simp; omega, by simp; omega⟩
      have : oracleRng.nextSide (fun i => i + b) = (.left, fun i => i + (b + 1)) := by
        show (if ((0 + b) &&& 1 == 1) = true then Side.left else Side.right, _) = _
        rw [hb, ho, hs]; rfl
      exact assignSides_left (congrArg Except.ok this) h1
    · refine ⟨l, j :: rt, r', ?_, by simp; omega, by simp; omega⟩
      have : oracleRng.nextSide (fun i => i + b) = (.right, fun i => i + (b + 1)) := by
        show (if ((0 + b) &&& 1 == 1) = true then Side.left else Side.right, _) = _
        rw [hb, hs]
        have : b % 2 = 0 := by omega
        rw [this]; rfl
      exact assignSides_right (congrArg Except.ok this) h1

/-- The generator that stands for races can produce balanced sides. -/
theorem angular_canBalance {N : Num} {C : Codec N.V} {sortIds sortP} {k f : Nat} (hk : k ≤ 8) :
    CanBalance (angularCfg N C oracleRng sortIds sortP k f) := by
  intro ids h2 hlt
  obtain ⟨l, rt, r', h1, hl, hr⟩ := assignSides_alternating (N := N) (C := C) (sortIds := sortIds)
    (sortP := sortP) (k := k) (f := f) ids 0
  refine ⟨_, l, rt, r', h1, ?_⟩
  have hr : 2 ^ (8 * k) ≤ 2 ^ 64 := Nat.pow_le_pow_right (by decide) (by omega)
  have hlt : ids.length < 2 ^ (8 * k) := hlt
  exact imbalanceLe99_near (by omega) (by omega) (by omega) (by omega) (by omega)

end Conc
end Annoy
