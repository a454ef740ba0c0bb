import Verif.Props.Build
import Verif.Proof.FloatInt
/-!
# Building with several workers (C11, C12, C13, C54, C62)
-/
namespace Annoy
open Conc

/-! ### C11 -/

/-- **C11.** `T ≥ 0` trees among `W ≥ 1` workers: the shares are not negative, add up to exactly `T`, and differ by at
most one. -/
theorem C11_shares (T W : Nat) (hW : 0 < W) :
    ((List.range W).map (share (T : Int) W)).sum = T ∧
    (∀ w, 0 ≤ share (T : Int) W w) ∧
    (∀ v w, v < W → w < W → share (T : Int) W v ≤ share (T : Int) W w + 1) := by
  have e : ∀ w, share (T : Int) W w = (((T + w) / W : Nat) : Int) := share_nat T W
  refine ⟨?_, fun w => share_ge (by omega), ?_⟩
  · have h := share_sum W hW T
    have : ∀ l : List Nat, (l.map (share (T : Int) W)).sum = (((l.map fun w => (T + w) / W).sum : Nat) : Int) := by
      intro l
      induction l with
      | nil => rfl
      | cons a l ih => rw [List.map_cons, List.sum_cons, ih, e, List.map_cons, List.sum_cons]; push_cast; ring
    rw [this, h]
  · intro v w hv hw
    rw [e, e]
    have h1 : (T + v) / W ≤ (T + W) / W := Nat.div_le_div_right (by omega)
    have h2 : T / W ≤ (T + w) / W := Nat.div_le_div_right (by omega)
    rw [Nat.add_div_right _ hW] at h1
    omega

/-- **C11**, as computed: the code divides `float64`s and takes the floor.  With fewer than `2^53` workers and trees
the result is the exact share, for positive and negative numbers of trees. -/
theorem C11_float (T : Int) (W w : Nat) (hW : 0 < W) (hW2 : W < 2 ^ 53) (h : (T + w).natAbs < 2 ^ 53) :
    floatShare T W w = share T W w := by
  unfold floatShare share
  split
  · rfl
  · rw [Ieee.floor_div h hW hW2]

/-- Ten trees, four workers. -/
example : (List.range 4).map (floatShare 10 4) = [2, 2, 3, 3] := by decide +kernel

/-- The bound matters: `2^53 + 1` is not a `float64`, and the one worker gets a tree less than asked for. -/
example : floatShare (2 ^ 53 + 1) 1 0 = 2 ^ 53 ∧ share (2 ^ 53 + 1) 1 0 = 2 ^ 53 + 1 := by decide +kernel

/-- Ten trees, four workers. -/
example : (List.range 4).map (share 10 4) = [2, 2, 3, 3] := by decide

/-- For a negative number of trees other than `-1` the shares can be `-1`, which means "until the index is full";
one worker alone would build nothing. -/
example : (List.range 2).map (share (-2) 2) = [-1, -1] := by decide

/-! ### executions -/

/-- `x` is reached at some moment of `Build(trees, W workers)` on a new index with any legal `AddItem` calls. -/
structure Running (c : Cfg) (adds : List (Nat × List c.N.V)) (trees : Int) (W : Nat) (x : Conf c) : Prop where
  wf : c.WF
  legal : LegalAdds c adds
  fits : c.L.Fits (multiBound (slotCount adds) trees W)
  reach : ∃ r hint s s1, (Idx.new c r hint).addAll adds = .ok s ∧ s.buildStart = .ok s1 ∧
    Steps (startWorkers s1 trees W) x

namespace Running
variable {c : Cfg} {adds : List (Nat × List c.N.V)} {trees : Int} {W : Nat} {x : Conf c}

theorem good (h : Running c adds trees W x) :
    ∃ d0, Good ⟨slotCount adds, room (slotCount adds) (addedIds adds) trees W, addedIds adds, Total c,
      (List.range W).map (share trees W)⟩ d0 x := by
  obtain ⟨r, hint, s, s1, h1, h2, h3⟩ := h.reach
  have hc := h.wf
  obtain ⟨s', g1, g2, g3, g4, _⟩ := addAll_spec hc adds _ _ _ (Idx.ItemInv.new c hc.layout r hint) h.legal
  rw [h1] at g1
  injection g1 with e
  subst e
  have g2' : s.ItemInv (lastAdded adds) (slotCount adds) := by simpa using g2
  obtain ⟨s1', k1, k2, k3, k4, k5, k6, _⟩ := Idx.buildStart_spec hc g2' g4
  rw [h2] at k1
  injection k1 with e
  subst e
  have hg := start_good hc k2 k3 k4 k5 (k6.trans g3) trees W (h.fits.mono (room_le _ _ trees W))
  exact ⟨_, hg.steps hc h3⟩

theorem step (h : Running c adds trees W x) {y : Conf c} (st : Step x y) : Running c adds trees W y := by
  obtain ⟨r, hint, s, s1, h1, h2, h3⟩ := h.reach
  exact ⟨h.wf, h.legal, h.fits, r, hint, s, s1, h1, h2, .tail h3 st⟩

theorem steps (h : Running c adds trees W x) {y : Conf c} (st : Steps x y) : Running c adds trees W y := by
  obtain ⟨r, hint, s, s1, h1, h2, h3⟩ := h.reach
  exact ⟨h.wf, h.legal, h.fits, r, hint, s, s1, h1, h2, Steps.trans h3 st⟩

end Running

/-! ### C13 -/

/-- **C13**, deadlock: at every moment of every execution, either all workers are done or some worker can act.
(`Total`: the distance implementation does not panic; the repository's do not for `f > 0`,
`angular_total`, `dot_total`.) -/
theorem C13_no_deadlock {c : Cfg} {adds : List (Nat × List c.N.V)} {trees : Int} {W : Nat} {x : Conf c}
    (h : Running c adds trees W x) (ht : Total c) : x.Finished ∨ ∃ y, Step x y := by
  obtain ⟨d0, hg⟩ := h.good
  rcases hg.progress with h | ⟨t, h1, e, h2⟩ | h
  · exact Or.inl h
  · exact absurd h2 (hg.no_fail ht t h1 e)
  · exact Or.inr h

/-- **C13**, moving memory: while a worker moves node memory (`Reallocate`), no other worker is about to read or write
node memory, and no other worker moves it.  No worker ever panics or leaves the index. -/
theorem C13_no_access_while_moving {c : Cfg} {adds : List (Nat × List c.N.V)} {trees : Int} {W : Nat} {x : Conf c}
    (h : Running c adds trees W x) (ht : Total c) :
    (∀ a b, Conf.Two x a b → a.1.moving = true → ¬ Touches b.2 ∧ b.1.moving = false) ∧
    (∀ t ∈ x.ths, ∀ e, t.2 ≠ .fail e) := by
  obtain ⟨d0, hg⟩ := h.good
  have hnf := hg.no_fail ht
  refine ⟨?_, hnf⟩
  intro a b hab hm
  have hmem : a ∈ x.ths ∧ b ∈ x.ths := by
    obtain ⟨pre, mid, post, e | e⟩ := hab <;> rw [e] <;> simp
  refine ⟨(hg.exclusive hab).1 hm (hnf a hmem.1), ?_⟩
  cases hb : b.1.moving with
  | false => rfl
  | true =>
    exfalso
    obtain ⟨t, u, rest, pub, rfl, rfl, I⟩ := hg.two hab
    have h1 := (I.thr t (by simp)).safe.moving (hnf _ hmem.1) hm
    have h2 := (I.thr u (by simp)).safe.moving (hnf _ hmem.2) hb
    have hX : X t.h u.h := by
      have := I.excl
      rw [List.map_cons, List.pairwise_cons] at this
      exact this.1 _ (by simp)
    rw [h1, h2] at hX
    exact hX.1 ⟨rfl, rfl⟩

/-! ### C62 -/

/-- **C62**, races: the node counter, the node size and the block pointer are used by one worker at a time, and so is the
list of roots; at no time do two workers write the same node, and no worker writes an item. -/
theorem C62_exclusive {c : Cfg} {adds : List (Nat × List c.N.V)} {trees : Int} {W : Nat} {x : Conf c}
    (h : Running c adds trees W x) :
    (∀ a b, Conf.Two x a b → ¬ (Counts a.2 ∧ Counts b.2) ∧ ¬ (Conc.Roots a.2 ∧ Conc.Roots b.2)) ∧
    (∀ a ∈ x.ths, ∀ i, writes a.2 = some i → slotCount adds ≤ i ∧ i < x.idx.nNodes) := by
  obtain ⟨d0, hg⟩ := h.good
  refine ⟨fun a b hab => ⟨(hg.exclusive hab).2.1, (hg.exclusive hab).2.2.1⟩, ?_⟩
  intro a ha i hi
  exact hg.write_bounds ha hi

/-- **C62**, one writer: if worker number `k` is about to write node `i` at one moment of an execution, and worker number
`k'` at the same or any later moment, they are the same worker. -/
theorem C62_single_writer {c : Cfg} {adds : List (Nat × List c.N.V)} {trees : Int} {W : Nat} {x y : Conf c}
    (h : Running c adds trees W x) (st : Steps x y) {k k' i : Nat} {a b : Held × Prog c}
    (ha : x.ths[k]? = some a) (hb : y.ths[k']? = some b) (wa : writes a.2 = some i) (wb : writes b.2 = some i) :
    k = k' := by
  obtain ⟨d0, hg⟩ := h.good
  exact hg.single_writer h.wf st ha hb wa wb

/-- **C62**, termination: an execution that never ends does nothing but draw unbalanced random sides from some moment on. -/
theorem C62_termination {c : Cfg} (xs : Nat → Conf c) (h : ∀ k, Step (xs k) (xs (k + 1))) :
    ∃ N, ∀ k, N ≤ k → (xs (k + 1)).ths = (xs k).ths ∧ ∃ t ∈ (xs k).ths, ∃ ids j, t.2 = Prog.rand ids j := by
  obtain ⟨N, hN⟩ := settles xs h
  exact ⟨N, fun k hk => ⟨hN k hk, stays (h k) (hN k hk)⟩⟩

/-- **C62**, completion: if the generator can balance sides, every execution, however far it got, can be completed. -/
theorem C62_can_finish {c : Cfg} {adds : List (Nat × List c.N.V)} {trees : Int} {W : Nat} {x : Conf c}
    (h : Running c adds trees W x) (ht : Total c) (hb : CanBalance c) : ∃ y, Steps x y ∧ y.Finished := by
  obtain ⟨d0, hg⟩ := h.good
  exact hg.can_finish h.wf ht hb

/-- The workers can be started. -/
theorem Running.start {c : Cfg} (hc : c.WF) {adds : List (Nat × List c.N.V)} (hl : LegalAdds c adds) {trees : Int}
    {W : Nat} (hf : c.L.Fits (multiBound (slotCount adds) trees W)) (r : c.R.σ) (hint : Nat) :
    ∃ x, Running c adds trees W x ∧ x.ths.length = W := by
  obtain ⟨s, h1, h2, h3, h4, _⟩ := addAll_spec hc adds _ _ _ (Idx.ItemInv.new c hc.layout r hint) hl
  have h2' : s.ItemInv (lastAdded adds) (slotCount adds) := by simpa using h2
  obtain ⟨s1, g1, _⟩ := Idx.buildStart_spec hc h2' h4
  exact ⟨startWorkers s1 trees W, ⟨hc, hl, hf, _, _, s, s1, h1, g1, .refl _⟩, by simp [startWorkers]⟩

/-- The hypotheses hold for the repository's angular index: twenty items, three workers, just started. -/
example : ∃ x, Running (oracle32 12) (longAdds 20) 5 3 x ∧ Total (oracle32 12) ∧ CanBalance (oracle32 12) ∧
    x.ths.length = 3 := by
  obtain ⟨x, h1, h2⟩ := Running.start (oracle32_wf (f := 12) (by decide)) (adds := longAdds 20)
    (legalAdds_of (by decide +kernel)) (trees := 5) (W := 3) (by decide +kernel) (fun _ => 0) 0
  exact ⟨x, h1, angular_total oracle_inRange (by decide), angular_canBalance (by decide), h2⟩

/-! ### C12 -/

/-- **C12**, given that inner nodes survive (`SplitsKept`, see C09): whatever the workers and the generator do, the
finished index has exactly `trees` roots, all different; each is the root of a well formed tree over exactly
the added items; the trees share no node and use every node number between the items and the root copies
once; and (if small indexes have no gaps) a walk from each root finds every item once. -/
theorem C12_concurrent_forest_partial {c : Cfg} {numCPU : Nat} {adds : List (Nat × List c.N.V)} {trees workers : Int}
    {s s' : Idx c} (h : Session c numCPU .multi adds trees workers s s') (ht : 0 ≤ trees) (hw : workers ≠ 0)
    (hk : SplitsKept c numCPU .multi (slotCount adds) trees workers) :
    s'.roots.length = trees.toNat ∧ s'.roots.Nodup ∧
    (∃ ts : List Tree, ts.map Tree.root = s'.roots ∧
      (∀ t ∈ ts, RootTree c.L s'.alloc.data s'.nItems (addedIds adds) t) ∧
      (ts.flatMap Tree.inner).Perm (List.range' s'.nItems (s'.nNodes - s'.roots.length - s'.nItems))) ∧
    ((slotCount adds ≤ c.L.K → Dense adds) → ∀ r ∈ s'.roots, ∃ fuel l,
      walk c.L s'.alloc.data s'.nItems fuel r = some l ∧ l.Nodup ∧ ∀ i, i ∈ l ↔ (lastAdded adds i).isSome) := by
  refine ⟨(C10_tree_count h fun _ => hw).1 ht, ?_, C09_well_formed_partial h hk,
    C08_each_item_once_partial h hk⟩
  obtain ⟨h1, h2, h3, _⟩ := h.start
  cases h.builds with
  | @multi _ _ W hW hb =>
    have hf := h.fits
    unfold treeRoom at hf
    rw [hW] at hf
    obtain ⟨N0, B, _, _, _, b⟩ := Conc.buildsMulti_spec h.wf h1 h2 h3 trees W hf hb
    exact b

/-- The hypotheses hold: twenty items, three trees, two workers (and the conclusion says something about three trees
with inner nodes). -/
example : ∃ s s', Session (oracle32 12) 8 .multi (longAdds 20) 3 2 s s' ∧ s'.roots.length = 3 ∧ s'.roots.Nodup := by
  have hc : (oracle32 12).WF := oracle32_wf (by decide)
  have hf : (oracle32 12).L.Fits (treeRoom 8 .multi (slotCount (longAdds 20)) 3 2) := by decide +kernel
  obtain ⟨s, s', h⟩ := multi_session hc (angular_total oracle_inRange (by decide))
    (angular_canBalance (by decide)) (fun _ => 0) (longAdds 20) (legalAdds_of (by decide +kernel)) 8 3 2 (W := 2) (by decide) hf
  have := C12_concurrent_forest_partial h (by decide) (by decide) (splitsKept_of_length hc (by decide) hf)
  exact ⟨s, s', h, this.1, this.2.1⟩

/-! ### C63 -/

/-- **C63.** Vectors with at least three times as many components as the index type has bytes: every build, single or
concurrent, makes a well formed forest of the requested size. -/
theorem C63_forest {c : Cfg} {numCPU : Nat} {pol : BuildPolicy} {adds : List (Nat × List c.N.V)} {trees workers : Int}
    {s s' : Idx c} (h : Session c numCPU pol adds trees workers s s') (hf : 3 * c.L.szIX ≤ c.L.f)
    (hd : Dense adds) (ht : 0 ≤ trees) (hw : pol = .multi → workers ≠ 0) :
    s'.roots.length = trees.toNat ∧
    (∃ ts : List Tree, ts.map Tree.root = s'.roots ∧
      ∀ t ∈ ts, RootTree c.L s'.alloc.data s'.nItems (addedIds adds) t) ∧
    ∀ r ∈ s'.roots, ∃ fuel l, walk c.L s'.alloc.data s'.nItems fuel r = some l ∧ l.Nodup ∧
      ∀ i, i ∈ l ↔ i < s'.nItems := by
  have hk := splitsKept_of_length h.wf hf h.fits
  refine ⟨(C10_tree_count h hw).1 ht, ?_, ?_⟩
  · obtain ⟨ts, h1, h2, _⟩ := C09_well_formed_partial h hk
    exact ⟨ts, h1, h2⟩
  · intro r hr
    obtain ⟨fuel, l, h1, h2, h3⟩ := C08_each_item_once_partial h hk (fun _ => hd) r hr
    refine ⟨fuel, l, h1, h2, fun i => (h3 i).trans ?_⟩
    obtain ⟨N0, B, _⟩ := h.built
    rw [B.nItems]
    exact ⟨fun hi => lastAdded_lt adds i hi, fun hi => hd i hi⟩

/-- The hypotheses hold: twenty dense items of twelve components. -/
example : ∃ s s', Session (oracle32 12) 8 .multi (longAdds 20) 3 2 s s' ∧ Dense (longAdds 20) ∧
    3 * (oracle32 12).L.szIX ≤ (oracle32 12).L.f := by
  obtain ⟨s, s', h⟩ := multi_session (oracle32_wf (f := 12) (by decide)) (angular_total oracle_inRange (by decide))
    (angular_canBalance (by decide)) (fun _ => 0) (longAdds 20) (legalAdds_of (by decide +kernel)) 8 3 2 (W := 2) (by decide)
    (by decide +kernel)
  refine ⟨s, s', h, ?_, by decide⟩
  have : ∀ i < slotCount (longAdds 20), (lastAdded (longAdds 20) i).isSome := by decide +kernel
  exact this

/-! ### C54 -/

theorem steps_none {c : Cfg} {x y : Conf c} (h : Steps x y) (hx : x.ths = []) : y = x := by
  induction h with
  | refl => rfl
  | tail _ st ih =>
    rw [ih] at st
    cases st with
    | mk pre post => simp at hx

/-- **C54 is false** for the multi worker policy: `Build(T, 0)` builds no tree at all, whatever `T`. -/
theorem C54_zero_workers {c : Cfg} {numCPU : Nat} {adds : List (Nat × List c.N.V)} {trees : Int} {s s' : Idx c}
    (h : Session c numCPU .multi adds trees 0 s s') : s'.roots = [] := by
  obtain ⟨h1, h2, h3, _⟩ := h.start
  cases h.builds with
  | @multi _ _ W hW hb =>
    have hW0 : W = 0 := by
      unfold numWorkers at hW
      simp at hW
      exact hW.symm
    subst hW0
    obtain ⟨s1, x, g1, g2, g3, g4⟩ := hb
    have hx := steps_none g2 (by simp [startWorkers])
    subst hx
    obtain ⟨s1', k1, _, _, _, _, k6, _⟩ := Idx.buildStart_spec h.wf h1 h2
    rw [g1] at k1
    injection k1 with e
    subst e
    have hf := h.fits
    unfold treeRoom at hf
    rw [hW] at hf
    obtain ⟨G, q1, _⟩ := Conc.multi_grown h.wf h1 h2 h3 trees 0 hf g1 g2 g3
    obtain ⟨s'', F1, _, F3, _⟩ := Idx.buildFinish_spec h.wf G (hf.mono q1)
    rw [g4] at F1
    injection F1 with e
    subst e
    rw [F3]
    exact k6.trans h3

/-- The refutation with a concrete index: three trees asked for, none made. -/
theorem C54_refuted : ∃ s s', Session (oracle32 12) 8 .multi (longAdds 20) 3 0 s s' ∧ s'.roots.length ≠ 3 := by
  have hc : (oracle32 12).WF := oracle32_wf (by decide)
  obtain ⟨s, s', h⟩ := multi_session hc (angular_total oracle_inRange (by decide))
    (angular_canBalance (by decide)) (fun _ => 0) (longAdds 20) (legalAdds_of (by decide +kernel)) 8 3 0 (W := 0) (by decide)
    (by decide +kernel)
  exact ⟨s, s', h, by rw [C54_zero_workers h]; simp⟩

/-- **C54**, the part that holds: the single worker policy ignores the number of workers. -/
theorem C54_single_partial {c : Cfg} {numCPU : Nat} {adds : List (Nat × List c.N.V)} {trees : Int} {s s' : Idx c}
    (h : Session c numCPU .single adds trees 0 s s') (ht : 0 ≤ trees) : s'.roots.length = trees.toNat :=
  (C10_tree_count h (by simp)).1 ht

end Annoy
