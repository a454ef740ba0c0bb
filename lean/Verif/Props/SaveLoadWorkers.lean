import Verif.Proof.Schedule
import Verif.Props.SaveLoadOrder
/-!
# Saving and loading an index built by two workers (C28)

`C28_one_worker_partial` is about one worker.  With two workers the roots may be stored in an order other than that of their numbers, the
copies get another order than the originals, and a default search of the loaded index begins with another tree.
-/
namespace Annoy

/-- A build by `W` workers that follow the schedule: in each turn one worker acts alone, until it has built its trees or (`true`) until
it cannot act any more, but at most for the given number of actions. -/
def ranBy (c : Cfg) (r : c.R.σ) (adds : List (Nat × List c.N.V)) (trees : Int) (W : Nat) (sched : List (Bool × Nat × Nat)) :
    Except Err (Idx c) := do
  let s ← (Idx.new c r 0).addAll adds
  let s1 ← s.buildStart
  let x := sched.foldl (fun x t => x.turn t.1 t.2.1 t.2.2) (startWorkers s1 trees W)
  if x.finished then x.idx.buildFinish else .error .diverge

theorem ranBy_session {c : Cfg} {r : c.R.σ} {adds : List (Nat × List c.N.V)} {trees : Int} {W numCPU : Nat} {workers : Int}
    {sched : List (Bool × Nat × Nat)} (p : Idx c → Bool) (hc : c.WF) (hl : LegalAdds c adds)
    (hf : c.L.Fits (treeRoom numCPU .multi (slotCount adds) trees workers)) (hW : numWorkers numCPU workers = some W)
    (h : okAnd p (ranBy c r adds trees W sched) = true) : ∃ s s', (Idx.new c r 0).addAll adds = .ok s ∧ Session c numCPU .multi adds trees workers s s' ∧ p s' = true := by
  cases e : ranBy c r adds trees W sched with
  | error e' => rw [e] at h; cases h
  | ok s' =>
    rw [e] at h
    unfold ranBy at e
    cases ha : (Idx.new c r 0).addAll adds with
    | error e' => rw [ha] at e; cases e
    | ok s =>
      rw [ha] at e
      cases hb : s.buildStart with
      | error e' => simp only [bind, Except.bind, hb] at e; cases e
      | ok s1 =>
        simp only [bind, Except.bind, hb] at e
        split at e
        · next hfin =>
          refine ⟨s, s', rfl, ⟨hc, hl, ⟨r, 0, ha⟩, hf, .multi hW ⟨s1, _, hb, ?_, Conf.finished_elim hfin, e⟩⟩, h⟩
          have : ∀ (l : List (Bool × Nat × Nat)) (x : Conf c), Steps x (l.foldl (fun x t => x.turn t.1 t.2.1 t.2.2) x) := by
            intro l
            induction l with
            | nil => exact fun x => .refl x
            | cons t l ih => exact fun x => (Conf.turn_steps t.1 t.2.1 t.2.2 x).append (ih _)
          exact this _ _
        · cases e

/-- Worker 0 builds its tree, worker 1 builds its tree and stores its root, worker 0 stores its root. -/
def crossing : List (Bool × Nat × Nat) := [(false, 0, 1000), (false, 1, 1000), (true, 1, 1000), (true, 0, 1000)]

/-- What the refutation needs to know of the index. -/
def crossedTrees {c : Cfg} (q : List c.N.V) (s' : Idx c) : Bool :=
  decide (s'.roots = [22, 20] ∧ s'.nItems = 19 ∧ s'.nNodes = 25 ∧
    ([19, 20, 21, 22].all fun i => !(decide (c.L.K < ndAt c.L s'.alloc.data i)) ||
      okAnd (fun y => c.N.lt y c.N.inf && c.N.lt (c.N.neg y) c.N.inf) (c.D.margin s'.alloc.data (i * c.L.nodeSize) q)) = true ∧
    ndAt c.L s'.alloc.data 21 ≠ 19 ∧
    childAt c.L s'.alloc.data 22 0 ≠ childAt c.L s'.alloc.data 24 0 ∧
    answerIds (Search.run c 100 s'.bmem s'.nItems s'.roots q 1 (-1) s'.createContext) = some [0] ∧
    answerIds (Search.run c 100 ⟨25 * c.L.nodeSize, s'.alloc.data⟩ 19 [24, 23, 22] q 1 (-1) s'.createContext) = some [1])

def crossedWith (add mul div : BitVec 32 → BitVec 32 → BitVec 32) : Bool :=
  okAnd (crossedTrees (c := alt32With add mul div 16) eastVec) (ranBy (alt32With add mul div 16) false groupAdds 2 2 crossing)

theorem crossed_checked : crossedWith add32S mul32S div32S = true := by decide +kernel

/-- **C28 is false for indexes built by two workers**, although all the hypotheses of `C28_one_worker_partial` except the policy hold:
worker 1 stores its root before worker 0 does.  Asked for the one nearest neighbour of (1, 0, …) with the default budget, the index answers
with item 0; saved and loaded, it answers with item 1.  `Load` also finds a third root. -/
theorem C28_two_workers_refuted : ∃ s s', Session (alt32 16) 2 .multi groupAdds 2 2 s s' ∧ (alt32 16).N.KeyLaws ∧ MinKeys (alt32 16) ∧
    (alt32 16).L.K < slotCount groupAdds ∧ 3 ≤ (addedIds groupAdds).length ∧ s'.roots = [22, 20] ∧
    (alt32 16).L.CountKept (slotCount groupAdds) ∧ SplitsKept (alt32 16) 2 .multi (slotCount groupAdds) 2 2 ∧
    GoodQuery (alt32 16) eastVec ∧ (∀ w, FiniteMargins s' w eastVec) ∧
    (∀ w, ∃ ds o, s'.getNnsByVector 100 w eastVec 1 (-1) s'.createContext = .ok ([0], ds, o)) ∧
    ∀ w path, FileOf s' w path → ∀ bk (u : Idx (alt32 16)), ∃ t, u.load bk w path = .ok (.nil, t) ∧ t.roots = [24, 23, 22] ∧
      ∃ ds o, t.getNnsByVector 100 w eastVec 1 (-1) t.createContext = .ok ([1], ds, o) := by
  have key : crossedWith ieee32.add ieee32.mul ieee32.div = true := fast32 crossedWith crossed_checked
  unfold crossedWith at key
  obtain ⟨s, s', -, h, hp⟩ := ranBy_session (c := alt32 16) (r := false) (adds := groupAdds) (trees := 2) (numCPU := 2) (workers := 2)
    (crossedTrees (c := alt32 16) eastVec) (alt32_wf (by decide)) (legalAdds_of (by decide +kernel)) (by decide +kernel) rfl key
  obtain ⟨h1, h2, h3, h4, h5, h6, h7, h8⟩ := of_decide_eq_true hp
  have hsl : slotCount groupAdds = 19 := by decide +kernel
  have hk : (alt32 16).L.CountKept (slotCount groupAdds) := by unfold Layout.CountKept; decide +kernel
  refine ⟨s, s', h, ieee32_keyLaws, angular_minKeys, by decide +kernel, by decide +kernel, h1, hk,
    splitsKept_of_length h.wf (by decide) h.fits, ⟨rfl, angular_marginOk rfl (by decide)⟩, fun w => ?_, fun w => ?_, fun w path hf bk u => ?_⟩
  · obtain ⟨N0, B, _⟩ := h.built
    obtain ⟨hm, -⟩ := B.mem_eq w (by omega)
    intro i i1 i2 i3
    rw [hm] at i3 ⊢
    rw [h1] at i2
    simp only [List.length_cons, List.length_nil] at i2
    have hi : i ∈ [19, 20, 21, 22] := by
      simp; omega
    have := List.all_eq_true.1 h4 i hi
    rw [Bool.or_eq_true] at this
    rcases this with h | h
    · have h : ndAt (alt32 16).L s'.alloc.data i ≤ (alt32 16).L.K := by simpa using h
      exact absurd (show (alt32 16).L.K < ndAt (alt32 16).L s'.alloc.data i from i3) (Nat.not_lt.2 h)
    · unfold okAnd at h
      split at h
      · next y hy =>
        rw [Bool.and_eq_true] at h
        exact ⟨y, hy, h⟩
      · cases h
  · obtain ⟨N0, B, _⟩ := h.built
    obtain ⟨d1, o1, e1⟩ := answerIds_some h7
    exact ⟨d1, o1, (B.search w (by omega) _ _ _ _ _).trans e1⟩
  · obtain ⟨t, l1, N0, B, _, R⟩ := h.reload (by decide +kernel) (by rw [h1]; simp) hk hf bk u
    have hN := B.nNodes
    rw [h1, h3] at hN
    have R : s'.Reloaded 19 N0 w t := (congrArg (fun n => s'.Reloaded n N0 w t) hsl).mp R
    have hN : N0 = 23 := by simp at hN; omega
    have hroots : t.roots = [24, 23, 22] := by
      obtain ⟨j, j1, j2, j3, j4, j5⟩ := R.roots
      rw [h3] at j4 j5
      have hj : 21 ≤ j := by
        by_contra hlt
        exact h5 (j4 21 (by omega) (by omega))
      obtain rfl : j = 21 := by omega
      rw [if_neg (by exact h6)] at j5
      exact j5
    have hmem : t.mem w = ⟨25 * (alt32 16).L.nodeSize, s'.alloc.data⟩ := by rw [R.mem, h3]
    have hctx : t.createContext = s'.createContext := by
      unfold Idx.createContext
      rw [R.nns, R.nNodes]
    obtain ⟨d1, o1, e1⟩ := answerIds_some h8
    refine ⟨t, l1, hroots, d1, o1, ?_⟩
    rw [← e1]
    unfold Idx.getNnsByVector
    rw [hmem, R.nItems, hroots, hctx]

end Annoy
