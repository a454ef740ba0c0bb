import Verif.Props.Build
import Verif.Proof.Term
/-!
# Build finishes (C10, C14) and is reproducible (C58)
-/
namespace Annoy

/-- **C14**, splits: whatever the hyperplanes and random sides do, an accepted split distributes exactly the given items
over two non-empty sides. -/
theorem C14_sides {c : Cfg} (hc : c.WF) (rf : Nat) (s s' : Idx c) (ids : List Nat) (m : Bytes) (l r : List Nat)
    (h : s.chooseSplit rf ids = .ok (m, l, r, s')) :
    (l ++ r).Perm ids ∧ l ≠ [] ∧ r ≠ [] ∧ l.length < ids.length ∧ r.length < ids.length := by
  obtain ⟨h1, h2, h3, _⟩ := Idx.chooseSplit_spec hc rf s ids h
  have := h1.length_eq
  rw [List.length_append] at this
  have := List.length_pos_iff.2 h2
  have := List.length_pos_iff.2 h3
  exact ⟨h1, h2, h3, by omega, by omega⟩

/-- **C14**, termination: if random sides are eventually balanced (and the distance implementation does not panic), then
for every legal sequence of `AddItem` calls `Build` finishes.  Fuel is no restriction: some number of
random draws (`rf`) is enough, a recursion depth of one more than the number of item slots is enough, and more fuel
does not change the result. -/
theorem C14_finishes {c : Cfg} (hc : c.WF) (ht : Conc.Total c) (hb : EventuallyBalanced c)
    (adds : List (Nat × List c.N.V)) (hl : LegalAdds c adds) (r : c.R.σ) (hint : Nat) (trees : Int)
    (hf : c.L.Fits (Idx.buildBound (slotCount adds) trees)) :
    ∃ s rf s', (Idx.new c r hint).addAll adds = .ok s ∧ ∀ rf' tf lf, rf ≤ rf' → slotCount adds + 1 ≤ tf →
      (if trees = -1 then slotCount adds else trees.toNat) + 1 ≤ lf → s.build rf' tf lf trees = .ok s' := by
  obtain ⟨s, h1, h2, h3, h4, _⟩ := addAll_spec hc adds _ _ _ (Idx.ItemInv.new c hc.layout r hint) hl
  have h2' : s.ItemInv (lastAdded adds) (slotCount adds) := by simpa using h2
  obtain ⟨rf, s', h⟩ := Idx.build_ok hc ht hb h2' h4 h3 trees hf
  exact ⟨s, rf, s', h1, h⟩

/-- **C10**, single worker: `Build(T)` ends, with exactly `T` trees.  `Build(-1)` ends with at least twice as many nodes as
item slots (root copies not counted), and no sooner than necessary: it is `Build(T)` for the smallest such
`T`. -/
theorem C10_single {c : Cfg} (hc : c.WF) (ht : Conc.Total c) (hb : EventuallyBalanced c) (numCPU : Nat)
    (adds : List (Nat × List c.N.V)) (hl : LegalAdds c adds) (r : c.R.σ) (hint : Nat) (trees workers : Int)
    (hf : c.L.Fits (Idx.buildBound (slotCount adds) trees)) :
    ∃ s s', (Idx.new c r hint).addAll adds = .ok s ∧ Session c numCPU .single adds trees workers s s' ∧
      (0 ≤ trees → s'.roots.length = trees.toNat) ∧
      (trees = -1 → 2 * s'.nItems + s'.roots.length ≤ s'.nNodes ∧
        s.Builds numCPU s'.roots.length workers .single s' ∧
        ∀ T : Nat, T < s'.roots.length → ∀ s1, s.Builds numCPU T workers .single s1 →
          s1.nNodes < 2 * s1.nItems + s1.roots.length) := by
  obtain ⟨s, rf, s', h1, h2⟩ := C14_finishes hc ht hb adds hl r hint trees hf
  have hB := h2 rf _ _ le_rfl le_rfl le_rfl
  have hS : Session c numCPU .single adds trees workers s s' := ⟨hc, hl, ⟨r, hint, h1⟩, hf, .single _ _ _ hB⟩
  obtain ⟨q1, q2⟩ := C10_tree_count hS (by simp)
  refine ⟨s, s', h1, hS, q1, fun h => ⟨q2 h, ?_⟩⟩
  obtain ⟨_, _, k3, _⟩ := hS.start
  subst h
  obtain ⟨f1, f2⟩ := Idx.build_full k3 hB
  refine ⟨.single _ _ _ f1, ?_⟩
  intro T hT s1 hs1
  cases hs1 with
  | single rf1 tf1 lf1 h3 =>
    obtain ⟨g1, g2, N, g3, g4⟩ := f2 T hT _ _ _ _ h3
    have h5 : c.L.wrap (2 * s1.nItems) ≤ 2 * s1.nItems := Nat.mod_le _ _
    have h6 : c.L.wrap (N + T) ≤ N + T := Nat.mod_le _ _
    omega

/-- **C58.** Two indexes with the same configuration, generator state and hint that are given the same items and built with
one worker are identical, whatever number of workers is asked for. -/
theorem C58_reproducible {c : Cfg} {numCPU numCPU' : Nat} {trees workers workers' : Int} {adds : List (Nat × List c.N.V)}
    {r : c.R.σ} {hint : Nat} {s t s' t' : Idx c} (hs : (Idx.new c r hint).addAll adds = .ok s)
    (ht : (Idx.new c r hint).addAll adds = .ok t) (hbs : s.Builds numCPU trees workers .single s')
    (hbt : t.Builds numCPU' trees workers' .single t') : s' = t' := by
  rw [hs] at ht
  injection ht with e
  subst e
  cases hbs with
  | single rf tf lf h =>
    cases hbt with
    | single rf' tf' lf' h' => exact Idx.build_det h h'

/-! ### an instance -/

/-- A generator whose sides alternate and whose indexes are all 0. -/
def altRng : Rng where
  σ := Bool
  next b := (b.toNat, !b)
  nextSide b := (if b then .left else .right, !b)
  nextIndex b n := if n = 0 then .error (.panic "integer divide by zero") else .ok (0, !b)
  setSeed b _ := b
  getSeed _ := 0
  cloneAndReset _ := false

theorem altRng_inRange : altRng.InRange := by
  intro r n hn
  exact ⟨0, !r, if_neg (by omega), hn⟩

/-- The repository's `float32` angular index with alternating sides. -/
def alt32 (f : Nat) : Cfg := angularCfg ieee32 (bvCodec 4) altRng sortNat (sortPairs ieee32) 4 f

theorem alt32_wf {f : Nat} (hf : 3 * 4 + 4 + f * 4 < 2 ^ 32) : (alt32 f).WF :=
  angular_wf (externals_concrete ieee32_lawful) (Or.inl rfl) (Or.inl rfl) hf

theorem alternating {c : Cfg} (b2 : Bool → c.R.σ) (h : ∀ b, c.R.nextSide (b2 b) = (if b then .left else .right, b2 !b))
    (ids : List Nat) : ∀ b, ∃ l rt b', Idx.assignSides (c := c) (fun _ r => .ok (c.R.nextSide r)) ids (b2 b)
      = .ok (l, rt, b2 b') ∧ l.length = (ids.length + b.toNat) / 2 ∧ rt.length = (ids.length + (!b).toNat) / 2 := by
  induction ids with
  | nil => intro b; exact ⟨[], [], b, rfl, by cases b <;> rfl, by cases b <;> rfl⟩
  | cons j ids ih =>
    intro b
    obtain ⟨l, rt, b', h1, h2, h3⟩ := ih (!b)
    cases b with
    | false =>
      refine ⟨l, j :: rt, b', Conc.assignSides_right (congrArg Except.ok (h false)) h1, ?_, ?_⟩ <;>
      · simp at h2 h3 ⊢; omega
    | true =>
      refine ⟨j :: l, rt, b', Conc.assignSides_left (congrArg Except.ok (h true)) h1, ?_, ?_⟩ <;>
      · simp at h2 h3 ⊢; omega

theorem alt32_balanced (f : Nat) : EventuallyBalanced (alt32 f) := by
  intro ids r h2 hlt
  obtain ⟨l, rt, b', h1, h3, h4⟩ := alternating (c := alt32 f) (fun b => b) (fun _ => rfl) ids r
  refine ⟨0, ?_⟩
  have e : drawSides (alt32 f) ids (0 + 1) r = (l, rt, b') := by
    unfold drawSides
    rw [h1]
    rfl
  rw [e]
  have hlt : ids.length < 2 ^ 32 := hlt
  apply imbalanceLe99_near <;> cases r <;> simp at h3 h4 <;> simp <;> omega

/-- All hypotheses of C10 and C14 hold for twenty items of length 12: `Build(3)` and `Build(-1)` finish. -/
example : ∃ s s', Session (alt32 12) 1 .single (longAdds 20) 3 1 s s' ∧ s'.roots.length = 3 := by
  obtain ⟨s, s', _, h, h1, _⟩ := C10_single (alt32_wf (f := 12) (by decide))
    (Conc.angular_total altRng_inRange (by decide)) (alt32_balanced 12) 1 (longAdds 20)
    (legalAdds_of (by decide +kernel)) false 0 3 1 (by decide +kernel)
  exact ⟨s, s', h, h1 (by decide)⟩

example : ∃ s s', Session (alt32 12) 1 .single (longAdds 20) (-1) 1 s s' ∧
    2 * s'.nItems + s'.roots.length ≤ s'.nNodes := by
  obtain ⟨s, s', _, h, _, h1⟩ := C10_single (alt32_wf (f := 12) (by decide))
    (Conc.angular_total altRng_inRange (by decide)) (alt32_balanced 12) 1 (longAdds 20)
    (legalAdds_of (by decide +kernel)) false 0 (-1) 1 (by decide +kernel)
  exact ⟨s, s', h, (h1 rfl).1⟩

/-- The hypotheses of C58 hold for a computed build with the repository's own generator. -/
example : ∃ s s', (Idx.new (angular32 4 2) (Kiss32.new 0) 0).addAll sixAdds = .ok s ∧
    s.Builds 1 2 1 .single s' := by
  obtain ⟨s1, h1, h2⟩ : ∃ s1, (Idx.new (angular32 4 2) (Kiss32.new 0) 0).addAll sixAdds = .ok s1 ∧
      ∃ s2, s1.build 10 20 10 2 = .ok s2 := by
    have : (match made (angular32 4 2) (Kiss32.new 0) sixAdds 2 with | .ok _ => true | .error _ => false) = true := by
      decide +kernel
    unfold made at this
    cases ha : (Idx.new (angular32 4 2) (Kiss32.new 0) 0).addAll sixAdds with
    | error e => rw [ha] at this; cases this
    | ok s1 =>
      rw [ha] at this
      cases hb : s1.build 10 20 10 2 with
      | error e =>
        exfalso
        have e' : (Except.ok s1 >>= fun s => Idx.build 10 20 10 2 s) = s1.build 10 20 10 2 := rfl
        rw [e', hb] at this
        cases this
      | ok s2 => exact ⟨s1, rfl, s2, hb⟩
  obtain ⟨s2, h2⟩ := h2
  exact ⟨s1, s2, h1, .single _ _ _ h2⟩

end Annoy
