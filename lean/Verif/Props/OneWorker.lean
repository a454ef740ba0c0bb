import Verif.Proof.ConcAtomic
import Verif.Props.Finish
import Verif.Props.Kiss
import Verif.Props.NoTrees
/-!
# The multi worker policy with one worker is the single worker policy (C104)
-/
namespace Annoy
variable {c : Cfg}

theorem AStep.step {x y : Conf c} (h : AStep x y) : Step x y := by
  cases h with
  | mk pre post st _ => exact .mk pre post st

theorem ASteps.steps {x y : Conf c} (h : ASteps x y) : Steps x y := by
  induction h with
  | refl => exact .refl _
  | tail _ st ih => exact .tail ih st.step

/-- What a build without racing draws can give, a build with racing draws can give: everything proved for `BuildsMulti` holds for `BuildsAtomic`. -/
theorem Idx.BuildsAtomic.multi {s s' : Idx c} {trees : Int} {W : Nat} (h : s.BuildsAtomic trees W s') : s.BuildsMulti trees W s' := by
  obtain ⟨s1, x, h1, h2, h3, h4⟩ := h
  exact ⟨s1, x, h1, h2.steps, h3, h4⟩

namespace Conc

theorem ASteps.head {x y : Conf c} (h : ASteps x y) : x = y ∨ ∃ w, AStep x w ∧ ASteps w y := by
  induction h with
  | refl => exact Or.inl rfl
  | tail _ st ih =>
    rcases ih with rfl | ⟨w, h1, h2⟩
    · exact Or.inr ⟨_, st, .refl _⟩
    · exact Or.inr ⟨w, h1, .tail h2 st⟩

theorem AStep.length {x y : Conf c} (h : AStep x y) : y.ths.length = x.ths.length := by
  cases h; simp

theorem finished_stuck {x y : Conf c} (hx : x.Finished) (h : AStep x y) : False := by
  cases h with
  | @mk s s' h h' p p' pre post st _ =>
    have := hx (h, p) (by simp)
    dsimp only at this
    subst this
    cases st

/-- All finished runs of a worker on its own end in the same configuration. -/
theorem alone_unique {x y z : Conf c} (hx : x.ths.length = 1) (hy : ASteps x y) (fy : y.Finished) (hz : ASteps x z) (fz : z.Finished) : y = z := by
  have key : ASteps y z ∧ y.ths.length = 1 := by
    clear fy
    induction hy with
    | refl => exact ⟨hz, hx⟩
    | tail _ st ih =>
      obtain ⟨i1, i2⟩ := ih
      rcases ASteps.head i1 with rfl | ⟨w, h1, h2⟩
      · exact (finished_stuck fz st).elim
      · rw [alone_det i2 st h1]
        exact ⟨h2, (AStep.length h1).trans i2⟩
  rcases ASteps.head key.1 with h | ⟨w, h1, _⟩
  · exact h
  · exact (finished_stuck fy h1).elim

end Conc

/-- **C104.** `Build(trees, 1)` of the multi worker policy ends in exactly the state in which `Build` of the single worker policy ends: bytes, roots, counters
and generator. -/
theorem C104_one_worker (hc : c.WF) (ht : Conc.Total c) (hb : EventuallyBalanced c) (numCPU : Nat) {adds : List (Nat × List c.N.V)} (hl : LegalAdds c adds)
    {r : c.R.σ} {hint : Nat} {trees : Int} (workers : Int) (hf : c.L.Fits (Idx.buildBound (slotCount adds) trees)) {s : Idx c}
    (hs : (Idx.new c r hint).addAll adds = .ok s) (s' : Idx c) :
    s.BuildsAtomic trees 1 s' ↔ s.Builds numCPU trees workers .single s' := by
  obtain ⟨s0, rf, s2, h1, h2⟩ := C14_finishes hc ht hb adds hl r hint trees hf
  rw [hs] at h1
  injection h1 with h1
  subst h1
  obtain ⟨s', h1', g2, -⟩ := addAll_spec hc adds _ _ _ (Idx.ItemInv.new c hc.layout r hint) hl
  rw [hs] at h1'
  injection h1' with h1'
  subst h1'
  have hn : s.nItems = slotCount adds := by
    have := g2.nItems
    simpa using this
  have hB := h2 rf (s.nItems + 2) (s.nItems + trees.toNat + 2) le_rfl (by omega) (by split <;> omega)
  -- one run of the worker
  obtain ⟨s1, e1, s3, rs, e2, e3⟩ : ∃ s1, s.buildStart = .ok s1 ∧ ∃ s3 rs,
      Idx.threadLoop rf (s.nItems + 2) trees (s.nItems + trees.toNat + 2) s1 [] = .ok (rs, s3) ∧
      Idx.buildFinish { s3 with roots := s3.roots ++ rs } = .ok s2 := by
    unfold Idx.build Idx.threadBuild at hB
    simp only [bind, Except.bind] at hB
    split at hB
    · cases hB
    · next s1 hs1 =>
      refine ⟨s1, hs1, ?_⟩
      split at hB
      · cases hB
      · next v hv =>
        split at hv
        · cases hv
        · next u hu =>
          cases hv
          exact ⟨u.2, u.1, hu, hB⟩
  have hn1 : s1.nItems = s.nItems := by
    unfold Idx.buildStart at e1
    split at e1
    · cases e1
    · split at e1
      · cases e1
      · cases e1; rfl
  have hstart : startWorkers s1 trees 1 = ⟨s1, [({}, Prog.worker s1.nItems trees)]⟩ := by
    unfold startWorkers
    have : share trees 1 0 = trees := by
      unfold share
      split
      · next h => exact h.symm
      · simp
    simp [this, List.range_succ]
  have hrun : ASteps (startWorkers s1 trees 1) ⟨{ s3 with roots := s3.roots ++ rs }, [({}, .done)]⟩ := by
    rw [hstart]
    unfold Prog.worker
    rw [← hn1] at e2
    exact Conc.Alone.thread _ e2
  have hfin : Conf.Finished (⟨{ s3 with roots := s3.roots ++ rs }, [({}, .done)]⟩ : Conf c) := by
    intro t ht
    rw [List.mem_singleton.1 ht]
  constructor
  · rintro ⟨s1', x, k1, k2, k3, k4⟩
    rw [e1] at k1
    injection k1 with k1
    subst k1
    have := Conc.alone_unique (by rw [hstart]; rfl) k2 k3 hrun hfin
    rw [this, e3] at k4
    injection k4 with k4
    subst k4
    exact .single _ _ _ hB
  · intro h
    cases h with
    | single rf' tf' lf' h =>
      rw [← Idx.build_det hB h]
      exact ⟨s1, _, e1, hrun, hfin, e3⟩

/-- Same for the indexes of the repository with the default generator, with nothing left to assume. -/
theorem C104_default (h : Index32 c) (numCPU : Nat) {adds : List (Nat × List c.N.V)} (hl : LegalAdds c adds) {r : c.R.σ} {hint : Nat} {trees : Int}
    (workers : Int) (hf : c.L.Fits (Idx.buildBound (slotCount adds) trees)) {s : Idx c} (hs : (Idx.new c r hint).addAll adds = .ok s) :
    ∃ s', s.Builds numCPU trees workers .single s' ∧ ∀ t, s.BuildsAtomic trees 1 t ↔ t = s' := by
  obtain ⟨s0, s', h1, h2, -⟩ := C76_build h numCPU adds hl r hint trees workers hf
  rw [hs] at h1
  injection h1 with h1
  subst h1
  refine ⟨s', h2.builds, fun t => ?_⟩
  rw [C104_one_worker h.wf h.total h.balanced numCPU hl workers hf hs]
  constructor
  · intro hb
    exact C58_reproducible hs hs hb h2.builds
  · rintro rfl
    exact h2.builds

/-- Twenty items of length 12, three trees. -/
example (numCPU : Nat) : ∃ s s', (Idx.new (angular32 4 12) (Kiss32.new 0) 0).addAll (longAdds 20) = .ok s ∧
    s.Builds numCPU 3 1 .single s' ∧ ∀ t, s.BuildsAtomic 3 1 t ↔ t = s' := by
  have hl : LegalAdds (angular32 4 12) (longAdds 20) := legalAdds_of (by decide +kernel)
  obtain ⟨s, -, h1, -⟩ := C76_build (c := angular32 4 12) (.angular32 (by decide) (by decide)) numCPU (longAdds 20) hl (Kiss32.new 0) 0 3 1 (by decide +kernel)
  obtain ⟨s', h2⟩ := C104_default (c := angular32 4 12) (.angular32 (by decide) (by decide)) numCPU hl (trees := 3) 1 (by decide +kernel) h1
  exact ⟨s, s', h1, h2⟩

end Annoy
