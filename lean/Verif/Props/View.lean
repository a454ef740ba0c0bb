import Verif.Model.View
import Verif.Props.Arena
/-!
# May a program keep, or change, what `GetItem` returns? (C103)
-/
namespace Annoy
namespace Arena

variable {c : Cfg}

/-- The slice shows the item. -/
theorem C103_shows {y : Sys} {k i : Nat} {z : View} (h : y.getView c k i = .ok z) : y.getItem c k i = .ok (z.read c y) := by
  unfold Sys.getView at h
  unfold Sys.getItem View.read
  cases hx : y.idx[k]? with
  | none => rw [hx] at h; cases h
  | some x =>
    rw [hx] at h
    dsimp only at h ⊢
    unfold Sys.block
    cases hp : x.ptr with
    | none => rw [hp] at h; cases h
    | some p =>
      rw [hp] at h
      dsimp only at h ⊢
      cases hg : getNode c.L (y.mem.arena p) i with
      | error e => rw [hg] at h; cases h
      | ok a => rw [hg] at h; cases h; rfl

theorem writeItem_frame (hc : c.WF) (b : Bytes) (a : Nat) {v : List c.N.V} (hv : v.length = c.L.f) {x : Nat} (hx : x < a ∨ a + c.L.nodeSize ≤ x) :
    c.D.initNode (Node.setVec c.L c.C (Node.setNDesc c.L b a 1) a v) a x = b x := by
  have hL := hc.layout
  have hoff := hL.offV_ge
  have hsz := hL.size_eq
  have hix := hL.szIX_pos
  obtain ⟨w, hw, h1, -⟩ := hc.initNode
  rw [h1 _ _ _ (by omega), Node.setVec_frame _ _ _ _ _ (by rw [hv]; omega), Node.setNDesc_frame _ _ _ _ (by omega)]

/-- No call touches arenas that are there before, apart from the node that `AddItem` writes. -/
theorem Owned.apply_frame (hc : c.WF) {y y' : Sys} {own : Nat → Nat} (h : Owned y own) {o : Op c} (hy : y.apply o = .ok y') {p : Nat} (hp : p < y.mem.next) :
    (∃ own', Owned y' own') ∧ p < y'.mem.next ∧
    ∀ x, (∀ j i v, o = .add j i v → x < c.L.addr i ∨ c.L.addr i + c.L.nodeSize ≤ x) → (y'.mem.arena p).get x = (y.mem.arena p).get x := by
  cases o with
  | make a hint =>
    cases hy
    refine ⟨h.make a hint, ?_⟩
    unfold Sys.make
    by_cases hh : hint > 0
    · obtain ⟨own', h1, h2, h3, _⟩ := reallocate_spec y.mem own h.alloc a (c.L.wrap (c.L.nodeSize * hint) * 3 / 2)
      simp only [if_pos hh]
      exact ⟨by omega, fun x _ => by rw [(h2 p hp).2]⟩
    · simp only [if_neg hh]
      exact ⟨hp, fun x _ => trivial⟩
  | close k =>
    refine ⟨⟨own, h.close hy⟩, ?_⟩
    unfold Sys.apply Sys.close at hy
    dsimp only at hy
    cases hx : y.idx[k]? with
    | none => rw [hx] at hy; cases hy
    | some x => rw [hx] at hy; cases hy; exact ⟨hp, fun x _ => rfl⟩
  | add j i v =>
    refine ⟨h.addItem hy, ?_⟩
    obtain ⟨x, a, h1, hv, hg, rfl⟩ := addItem_eq hy
    obtain ⟨own', o1, o2, o3, -⟩ := allocateSize_owned (c := c) y.mem own h.alloc x (h.ptr x (List.mem_of_getElem? h1)) (c.L.wrap (i + 1))
    have ha : a = c.L.addr i := (Idx.getNode_ok hg).1
    refine ⟨Nat.lt_of_lt_of_le hp o3, fun x hx => ?_⟩
    have hx' := hx j i v rfl
    rw [← ha] at hx'
    simp only [Mem.write]
    split
    · show c.D.initNode _ _ _ = _
      rw [writeItem_frame hc _ _ hv hx', (o2 p hp).2]
    · rw [(o2 p hp).2]

/-- **C103**: the slice keeps its components through every later program on any number of indexes that does not add the same item number again, also when
the index grows or is closed.  (Missing: the same number added again, where it may or may not change, `C103_copy_refuted`, `C103_live_refuted`; mapped
files, whose memory is gone after `Close`.) -/
theorem C103_kept_partial (hc : c.WF) {pre ops : List (Op c)} {y y' : Sys} (hpre : Sys.empty.run pre = .ok y) (hops : y.run ops = .ok y') {k i : Nat}
    {z : View} (hz : y.getView c k i = .ok z) (hi : c.L.Fits (i + 1)) (hleg : ∀ j n v, Op.add j n v ∈ ops → c.L.Fits (n + 1) ∧ n ≠ i) :
    z.read c y' = z.read c y := by
  have hL := hc.layout
  have hp := hL.nodeSize_pos
  have haddr : ∀ n, c.L.Fits (n + 1) → c.L.addr n = n * c.L.nodeSize := by
    intro n hn
    apply c.L.wrap_eq
    unfold Layout.Fits at hn
    rw [Nat.mul_assoc, Nat.add_mul] at hn
    omega
  have own0 : ∀ (os : List (Op c)) (y y' : Sys), y.run os = .ok y' → (∃ own, Owned y own) → ∃ own, Owned y' own := by
    intro os
    induction os with
    | nil => intro y y' h1 h2; cases h1; exact h2
    | cons o os ih =>
      intro y y' h1 ⟨own, h2⟩
      unfold Sys.run at h1
      cases ho : y.apply o with
      | error e => rw [ho] at h1; cases h1
      | ok y1 =>
        rw [ho] at h1
        refine ih y1 y' h1 ?_
        cases o with
        | make a hint => cases ho; exact h2.make a hint
        | add j n v => exact h2.addItem ho
        | close k => exact ⟨own, h2.close ho⟩
  obtain ⟨own, hown⟩ := own0 pre _ y hpre ⟨fun _ => 0, ⟨(by intro a p h; cases h), (by intro x hx; cases hx)⟩⟩
  -- where the slice is
  have hz' : z.arena < y.mem.next ∧ z.addr = i * c.L.nodeSize := by
    unfold Sys.getView at hz
    cases hx : y.idx[k]? with
    | none => rw [hx] at hz; cases hz
    | some x =>
      rw [hx] at hz
      dsimp only at hz
      cases hptr : x.ptr with
      | none => rw [hptr] at hz; cases hz
      | some p =>
        rw [hptr] at hz
        dsimp only at hz
        unfold getNode at hz
        split at hz
        · cases hz
        · next a e =>
          split at e
          · cases e; cases hz
            exact ⟨(hown.ptr x (List.mem_of_getElem? hx) p hptr).2, haddr i hi⟩
          · cases e
  have key : ∀ (os : List (Op c)) (y y' : Sys), y.run os = .ok y' → (∃ own, Owned y own) → z.arena < y.mem.next →
      (∀ j n v, Op.add j n v ∈ os → c.L.Fits (n + 1) ∧ n ≠ i) →
      ∀ x, x < c.L.nodeSize → (y'.mem.arena z.arena).get (i * c.L.nodeSize + x) = (y.mem.arena z.arena).get (i * c.L.nodeSize + x) := by
    intro os
    induction os with
    | nil => intro y y' h1 _ _ _ x _; cases h1; rfl
    | cons o os ih =>
      intro y y' h1 ⟨own, h2⟩ h3 h4 x hx
      unfold Sys.run at h1
      cases ho : y.apply o with
      | error e => rw [ho] at h1; cases h1
      | ok y1 =>
        rw [ho] at h1
        obtain ⟨f1, f2, f3⟩ := h2.apply_frame hc ho h3
        rw [ih y1 y' h1 f1 f2 (fun j n v hm => h4 j n v (List.mem_cons_of_mem _ hm)) x hx]
        apply f3
        rintro j n v rfl
        obtain ⟨g1, g2⟩ := h4 j n v List.mem_cons_self
        rw [haddr n g1]
        rcases Nat.lt_or_gt_of_ne g2 with hlt | hgt
        · have := Nat.mul_le_mul_right c.L.nodeSize (Nat.succ_le_of_lt hlt)
          rw [Nat.succ_mul] at this
          omega
        · have := Nat.mul_le_mul_right c.L.nodeSize (Nat.succ_le_of_lt hgt)
          rw [Nat.succ_mul] at this
          omega
  have hk := key ops y y' hops ⟨own, hown⟩ hz'.1 hleg
  unfold View.read
  rw [hz'.2]
  apply Node.vec_congr
  intro j hj
  have hsz := hL.size_eq
  have := hk (c.L.offV + j) (by omega)
  simpa [Nat.add_assoc] using this

/-- One item. -/
def oneItem : List (Op (angular32 4 2)) := [.make 0 0, .add 0 0 [one32, zero32]]

/-- What the slice of item 0, taken after `pre`, shows after `ops`, and what `GetItem` answers then. -/
def sees (pre ops : List (Op (angular32 4 2))) (seen got : List ieee32.V) : Bool :=
  okWith (Sys.empty.run pre) fun y => okWith (y.getView (angular32 4 2) 0 0) fun z => okWith (y.run ops) fun y' =>
    sameVec (z.read (angular32 4 2) y') seen && okWith (y'.getItem (angular32 4 2) 0 0) fun v => sameVec v got

theorem sees_elim {pre ops : List (Op (angular32 4 2))} {seen got : List ieee32.V} (h : sees pre ops seen got = true) :
    ∃ y z y', Sys.empty.run pre = .ok y ∧ y.getView (angular32 4 2) 0 0 = .ok z ∧ y.run ops = .ok y' ∧ z.read (angular32 4 2) y' = seen ∧
      y'.getItem (angular32 4 2) 0 0 = .ok got := by
  obtain ⟨y, h1, h⟩ := okWith_elim h
  obtain ⟨z, h2, h⟩ := okWith_elim h
  obtain ⟨y', h3, h⟩ := okWith_elim h
  obtain ⟨h4, h⟩ := Bool.and_eq_true_iff.1 h
  obtain ⟨v, h5, h⟩ := okWith_elim h
  exact ⟨y, z, y', h1, h2, h3, sameVec_elim h4, h5.trans (congrArg Except.ok (sameVec_elim h))⟩

/-- **C103: the slice is no copy.**  It was (1,0); `AddItem(0, (0,1))` changes it. -/
theorem C103_copy_refuted : ∃ y z y', Sys.empty.run oneItem = .ok y ∧ y.getView (angular32 4 2) 0 0 = .ok z ∧
    y.run (c := angular32 4 2) [.add 0 0 [zero32, one32]] = .ok y' ∧ z.read (angular32 4 2) y' = [zero32, one32] ∧
    y'.getItem (angular32 4 2) 0 0 = .ok [zero32, one32] := sees_elim (by decide +kernel)

/-- **C103: nor does it follow the item.**  When the index has grown in between, the slice stays (1,0) while the item becomes (0,1). -/
theorem C103_live_refuted : ∃ y z y', Sys.empty.run oneItem = .ok y ∧ y.getView (angular32 4 2) 0 0 = .ok z ∧
    y.run (c := angular32 4 2) [.add 0 1 [one32, one32], .add 0 0 [zero32, one32]] = .ok y' ∧ z.read (angular32 4 2) y' = [one32, zero32] ∧
    y'.getItem (angular32 4 2) 0 0 = .ok [zero32, one32] := sees_elim (by decide +kernel)

/-- The hypotheses of `C103_kept_partial`: the index grows twice and is closed, the slice stays. -/
example : (angular32 4 2).WF ∧ (angular32 4 2).L.Fits (0 + 1) ∧
    (∀ j n v, Op.add j n v ∈ ([.add 0 1 [one32, one32], .add 0 9 [zero32, one32], .make 0 5, .close 0, .add 0 3 [one32, one32]] : List (Op (angular32 4 2))) →
      (angular32 4 2).L.Fits (n + 1) ∧ n ≠ 0) ∧
    ∃ y z y', Sys.empty.run oneItem = .ok y ∧ y.getView (angular32 4 2) 0 0 = .ok z ∧
      y.run (c := angular32 4 2) [.add 0 1 [one32, one32], .add 0 9 [zero32, one32], .make 0 5, .close 0, .add 0 3 [one32, one32]] = .ok y' ∧
      z.read (angular32 4 2) y' = [one32, zero32] ∧ y'.getItem (angular32 4 2) 0 0 = .ok [zero32, zero32] := by
  refine ⟨angular32_wf (Or.inl rfl) (by decide), by decide, fun j n v h => ?_, sees_elim (by decide +kernel)⟩
  simp only [List.mem_cons, Op.add.injEq, List.not_mem_nil, or_false, reduceCtorEq, false_or] at h
  rcases h with ⟨-, rfl, -⟩ | ⟨-, rfl, -⟩ | ⟨-, rfl, -⟩ <;> exact ⟨by decide, by decide⟩

/-- **C103: writing through the slice breaks distances.**  Items (1,0) and (1,1).  Setting the first component of the slice of item 0 to 2 makes the item
(2,0), but not its cached norm: the distance is NaN.  Added as such, (2,0) and (1,1) have a distance. -/
theorem C103_write_refuted : ∃ y z d, Sys.empty.run (c := angular32 4 2) [.make 0 0, .add 0 0 [one32, zero32], .add 0 1 [one32, one32]] = .ok y ∧
    y.getView (angular32 4 2) 0 0 = .ok z ∧
    (z.assign (angular32 4 2) y 0 (x32 0x40000000)).getItem (angular32 4 2) 0 0 = .ok [x32 0x40000000, zero32] ∧
    (z.assign (angular32 4 2) y 0 (x32 0x40000000)).getDistance (angular32 4 2) 0 0 1 = .ok d ∧ ¬ ieee32.Ordinary d ∧
    ∃ y' d', Sys.empty.run (c := angular32 4 2) [.make 0 0, .add 0 0 [x32 0x40000000, zero32], .add 0 1 [one32, one32]] = .ok y' ∧
      y'.getDistance (angular32 4 2) 0 0 1 = .ok d' ∧ ieee32.Ordinary d' := by
  have h : (okWith (Sys.empty.run (c := angular32 4 2) [.make 0 0, .add 0 0 [one32, zero32], .add 0 1 [one32, one32]]) fun y =>
      okWith (y.getView (angular32 4 2) 0 0) fun z =>
      okWith ((z.assign (angular32 4 2) y 0 (x32 0x40000000)).getItem (angular32 4 2) 0 0) (fun v => sameVec v [x32 0x40000000, zero32]) &&
      okWith ((z.assign (angular32 4 2) y 0 (x32 0x40000000)).getDistance (angular32 4 2) 0 0 1) (fun d => !ieee32.eq d d)) = true := by decide +kernel
  have h' : (okWith (Sys.empty.run (c := angular32 4 2) [.make 0 0, .add 0 0 [x32 0x40000000, zero32], .add 0 1 [one32, one32]]) fun y =>
      okWith (y.getDistance (angular32 4 2) 0 0 1) (fun d => ieee32.eq d d)) = true := by decide +kernel
  obtain ⟨y, h1, h⟩ := okWith_elim h
  obtain ⟨z, h2, h⟩ := okWith_elim h
  obtain ⟨h3, h⟩ := Bool.and_eq_true_iff.1 h
  obtain ⟨v, h4, h5⟩ := okWith_elim h3
  obtain ⟨d, h6, h7⟩ := okWith_elim h
  obtain ⟨y', g1, g2⟩ := okWith_elim h'
  obtain ⟨d', g3, g4⟩ := okWith_elim g2
  refine ⟨y, z, d, h1, h2, h4.trans (congrArg Except.ok (sameVec_elim h5)), h6, ?_, y', d', g1, g3, g4⟩
  intro hd
  unfold Num.Ordinary at hd
  have h7' : (!ieee32.eq d d) = true := h7
  rw [show ieee32.eq d d = true from hd] at h7'
  cases h7'

end Arena
end Annoy
