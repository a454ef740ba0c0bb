import Verif.Props.SaveLoadWorkers
/-!
# Builds with several workers (C74, C75)
-/
namespace Annoy

theorem lastAdded_of_mem {V : Type} {adds : List (Nat × List V)} {p : Nat × List V} (h : p ∈ adds) : (lastAdded adds p.1).isSome := by
  unfold lastAdded
  rw [Option.isSome_map, List.find?_isSome]
  exact ⟨p, List.mem_reverse.2 h, by simp⟩

/-- The number of slots depends on the stored items only. -/
theorem slotCount_le_of {V : Type} {adds adds' : List (Nat × List V)} (h : ∀ i, (lastAdded adds i).isSome → (lastAdded adds' i).isSome) :
    slotCount adds ≤ slotCount adds' := by
  have : ∀ l : List (Nat × List V), (∀ p ∈ l, p.1 < slotCount adds') → slotCount l ≤ slotCount adds' := by
    intro l
    induction l with
    | nil => exact fun _ => Nat.zero_le _
    | cons p l ih =>
      intro hp
      have h1 := hp p (by simp)
      have h2 := ih fun q hq => hp q (by simp [hq])
      show max (p.1 + 1) (slotCount l) ≤ _
      omega
  exact this adds fun p hp => lastAdded_lt _ _ (h _ (lastAdded_of_mem hp))

theorem addedIds_congr {V : Type} {adds adds' : List (Nat × List V)} (h : ∀ i, lastAdded adds i = lastAdded adds' i) :
    addedIds adds = addedIds adds' := by
  have e : slotCount adds = slotCount adds' :=
    Nat.le_antisymm (slotCount_le_of fun i hi => by rw [← h]; exact hi) (slotCount_le_of fun i hi => by rw [h]; exact hi)
  have e' : lastAdded adds = lastAdded adds' := funext h
  unfold addedIds
  rw [e, e']

/-- **C74**: two indexes with the same items.  They may differ in everything else: order and repetition of the `AddItem` calls, generator
state, hint, policy, number of trees and workers, schedule.  A search that may inspect everything gives the same answer on both, bit for
bit. -/
theorem C74_items_decide {c : Cfg} {numCPU numCPU' : Nat} {pol pol' : BuildPolicy} {adds adds' : List (Nat × List c.N.V)}
    {trees trees' workers workers' : Int} {s s' u u' : Idx c}
    (h : Session c numCPU pol adds trees workers s s') (h' : Session c numCPU' pol' adds' trees' workers' u u')
    (hsame : ∀ i, lastAdded adds i = lastAdded adds' i) (hN : c.N.Lawful)
    (hk : SplitsKept c numCPU pol (slotCount adds) trees workers) (hk' : SplitsKept c numCPU' pol' (slotCount adds') trees' workers')
    (hroots : s'.roots ≠ []) (hroots' : u'.roots ≠ [])
    {query : List c.N.V} (hq : GoodQuery c query) {k b b' : Int} {fuel fuel' : Nat} {w w' : World} {ctx ctx' o o' : Ctx c}
    {ids ids' : List Nat} {ds ds' : List c.N.V}
    (hb : ((s'.roots.length * ((addedIds adds).length - 1) + 1 : Nat) : Int) ≤ b)
    (hb' : ((u'.roots.length * ((addedIds adds).length - 1) + 1 : Nat) : Int) ≤ b')
    (hr : s'.getNnsByVector fuel w query k b ctx = .ok (ids, ds, o))
    (hr' : u'.getNnsByVector fuel' w' query k b' ctx' = .ok (ids', ds', o')) : ids' = ids ∧ ds' = ds := by
  have ea : addedIds adds = addedIds adds' := addedIds_congr hsame
  have em : lastAdded adds = lastAdded adds' := funext hsame
  obtain ⟨ts0, S0, C0, U0, _⟩ := h.searchable_complete hk w
  obtain ⟨N0, B, _⟩ := h.built
  have e0 : liveOf (lastAdded adds) s'.nItems = addedIds adds := by rw [B.nItems]
  obtain ⟨_, d3, d4⟩ := Search.exhaustive h.wf hN S0 C0 (by rw [e0]; exact U0) hq hroots (by rw [e0]; exact hb) hr
  obtain ⟨ts1, S1, C1, U1, _⟩ := h'.searchable_complete hk' w'
  obtain ⟨N1, B1, _⟩ := h'.built
  have e1 : liveOf (lastAdded adds') u'.nItems = addedIds adds' := by rw [B1.nItems]
  obtain ⟨_, d1, d2⟩ := Search.exhaustive h'.wf hN S1 C1 (by rw [e1]; exact U1) hq hroots' (by rw [e1, ← ea]; exact hb') hr'
  rw [e0] at d3 d4
  rw [e1, ← ea, ← em] at d1 d2
  exact ⟨d1.trans d3.symm, d2.trans d4.symm⟩

/-- **C75**, what is left of it: an index built twice, by several workers, gives the same answers to searches that may inspect everything
(if inner nodes survive).  Missing: smaller budgets, where it is false. -/
theorem C75_exhaustive_partial {c : Cfg} {numCPU : Nat} {adds : List (Nat × List c.N.V)} {trees workers : Int} {s s' s'' : Idx c}
    (h : Session c numCPU .multi adds trees workers s s') (h' : Session c numCPU .multi adds trees workers s s'') (hN : c.N.Lawful)
    (hk : SplitsKept c numCPU .multi (slotCount adds) trees workers) (hroots : s'.roots ≠ []) (hroots' : s''.roots ≠ [])
    {query : List c.N.V} (hq : GoodQuery c query) {k b : Int} {fuel fuel' : Nat} {w w' : World} {ctx ctx' o o' : Ctx c}
    {ids ids' : List Nat} {ds ds' : List c.N.V}
    (hb : ((s'.roots.length * ((addedIds adds).length - 1) + 1 : Nat) : Int) ≤ b)
    (hb' : ((s''.roots.length * ((addedIds adds).length - 1) + 1 : Nat) : Int) ≤ b)
    (hr : s'.getNnsByVector fuel w query k b ctx = .ok (ids, ds, o))
    (hr' : s''.getNnsByVector fuel' w' query k b ctx' = .ok (ids', ds', o')) : ids' = ids ∧ ds' = ds :=
  C74_items_decide h h' (fun _ => rfl) hN hk hk hroots hroots' hq hb hb' hr hr'

/-- Worker 1 divides the items, worker 0 builds its tree, worker 1 builds the rest of its tree. -/
def overtaking : List (Bool × Nat × Nat) := [(true, 1, 28), (true, 0, 1000), (true, 1, 1000)]

/-- One worker after the other. -/
def inTurn : List (Bool × Nat × Nat) := [(true, 0, 1000), (true, 1, 1000)]

/-- The answer to the default search for one neighbour. -/
def answersWith {c : Cfg} (q : List c.N.V) (ids : List Nat) (s' : Idx c) : Bool :=
  decide (0 < s'.nNodes ∧ s'.roots ≠ [] ∧
    answerIds (Search.run c 100 s'.bmem s'.nItems s'.roots q 1 (-1) s'.createContext) = some ids)

def overtakenWith (add mul div : BitVec 32 → BitVec 32 → BitVec 32) : Bool :=
  okAnd (answersWith (c := alt32With add mul div 16) eastVec [1]) (ranBy (alt32With add mul div 16) false groupAdds 2 2 overtaking)

theorem overtaken_checked : overtakenWith add32S mul32S div32S = true := by decide +kernel

def inTurnWith (add mul div : BitVec 32 → BitVec 32 → BitVec 32) : Bool :=
  okAnd (answersWith (c := alt32With add mul div 16) eastVec [0]) (ranBy (alt32With add mul div 16) false groupAdds 2 2 inTurn)

theorem inTurn_checked : inTurnWith add32S mul32S div32S = true := by decide +kernel

/-- **C75 as stated is false**: the same index `s` (same items, same generator state) built twice with two trees and two workers.  The two
results differ in their answers to a default search, and inner nodes survive in both. -/
theorem C75_refuted : ∃ s s' s'', Session (alt32 16) 2 .multi groupAdds 2 2 s s' ∧ Session (alt32 16) 2 .multi groupAdds 2 2 s s'' ∧
    SplitsKept (alt32 16) 2 .multi (slotCount groupAdds) 2 2 ∧ GoodQuery (alt32 16) eastVec ∧ s'.roots ≠ [] ∧ s''.roots ≠ [] ∧
    (∀ w, ∃ ds o, s'.getNnsByVector 100 w eastVec 1 (-1) s'.createContext = .ok ([0], ds, o)) ∧
    ∀ w, ∃ ds o, s''.getNnsByVector 100 w eastVec 1 (-1) s''.createContext = .ok ([1], ds, o) := by
  have key : inTurnWith ieee32.add ieee32.mul ieee32.div = true := fast32 inTurnWith inTurn_checked
  have key' : overtakenWith ieee32.add ieee32.mul ieee32.div = true := fast32 overtakenWith overtaken_checked
  unfold inTurnWith at key
  unfold overtakenWith at key'
  obtain ⟨s, s', a, h, hp⟩ := ranBy_session (c := alt32 16) (r := false) (adds := groupAdds) (trees := 2) (numCPU := 2) (workers := 2)
    (answersWith (c := alt32 16) eastVec [0]) (alt32_wf (by decide)) (legalAdds_of (by decide +kernel)) (by decide +kernel) rfl key
  obtain ⟨u, u', a', h', hp'⟩ := ranBy_session (c := alt32 16) (r := false) (adds := groupAdds) (trees := 2) (numCPU := 2) (workers := 2)
    (answersWith (c := alt32 16) eastVec [1]) (alt32_wf (by decide)) (legalAdds_of (by decide +kernel)) (by decide +kernel) rfl key'
  rw [a] at a'
  cases a'
  obtain ⟨h1, h2, h3⟩ := of_decide_eq_true hp
  obtain ⟨h4, h5, h6⟩ := of_decide_eq_true hp'
  refine ⟨s, s', u', h, h', splitsKept_of_length h.wf (by decide) h.fits, ⟨rfl, angular_marginOk rfl (by decide)⟩, h2, h5,
    fun w => ?_, fun w => ?_⟩
  · obtain ⟨N0, B, _⟩ := h.built
    obtain ⟨d1, o1, e1⟩ := answerIds_some h3
    exact ⟨d1, o1, (B.search w h1 _ _ _ _ _).trans e1⟩
  · obtain ⟨N0, B, _⟩ := h'.built
    obtain ⟨d1, o1, e1⟩ := answerIds_some h6
    exact ⟨d1, o1, (B.search w h4 _ _ _ _ _).trans e1⟩

/-- The hypotheses of C74: the two indexes of `C75_refuted`.  With a budget of 5, which is
`2 * (3 - 1) + 1`, both have an answer. -/
example : ∃ s s' s'', Session (alt32 16) 2 .multi groupAdds 2 2 s s' ∧ Session (alt32 16) 2 .multi groupAdds 2 2 s s'' ∧ s' ≠ s'' ∧
    (alt32 16).N.Lawful ∧ SplitsKept (alt32 16) 2 .multi (slotCount groupAdds) 2 2 ∧ GoodQuery (alt32 16) eastVec ∧ s'.roots ≠ [] ∧
    s''.roots ≠ [] ∧ ∀ w, (∃ fuel ctx x, s'.getNnsByVector fuel w eastVec 1 5 ctx = .ok x) ∧
      ∃ fuel ctx x, s''.getNnsByVector fuel w eastVec 1 5 ctx = .ok x := by
  obtain ⟨s, s', s'', h, h', hk, hq, hr, hr', ha, ha'⟩ := C75_refuted
  have run : ∀ {t : Idx (alt32 16)}, Session (alt32 16) 2 .multi groupAdds 2 2 s t → ∀ w,
      ∃ fuel ctx x, t.getNnsByVector fuel w eastVec 1 5 ctx = .ok x := by
    intro t ht w
    exact ⟨_, ⟨List.replicate (t.roots.length * slotCount groupAdds) 0, []⟩,
      (C20_bound_partial ht hk ieee32_lawful w hq 1 5 _ (Nat.lt_succ_self _)).2 (by simp only [List.length_replicate]; exact le_rfl)⟩
  refine ⟨s, s', s'', h, h', ?_, ieee32_lawful, hk, hq, hr, hr', fun w => ⟨run h w, run h' w⟩⟩
  rintro rfl
  obtain ⟨d, o, e⟩ := ha (oneFile "x" [])
  obtain ⟨d', o', e'⟩ := ha' (oneFile "x" [])
  rw [e] at e'
  cases e'

end Annoy
