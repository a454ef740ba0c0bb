import Verif.Props.Search
/-!
# Searches that go wrong (C17, C18, C22, C23, C25) and examples for the theorems about searches

Concrete indexes with the repository's `float32` angular distance, built by the model itself and searched with a context made
by `CreateContext`.  The computations are done by the kernel.
-/
namespace Annoy

/-- The search functions of a built index, on the memory it was built in. -/
theorem Idx.Built.search {c : Cfg} {s : Idx c} {m : Nat → Option (List c.N.V)} {n N0 : Nat} (h : s.Built m n N0) (w : World)
    (h0 : 0 < s.nNodes) (fuel : Nat) (query : List c.N.V) (k b : Int) (ctx : Ctx c) :
    s.getNnsByVector fuel w query k b ctx = Search.run c fuel s.bmem s.nItems s.roots query k b ctx := by
  obtain ⟨h1, h2⟩ := h.mem_eq w h0
  unfold Idx.getNnsByVector
  rw [h1, h2]

/-- The indexes a query returned. -/
def answerIds {c : Cfg} (r : Except Err (List Nat × List c.N.V × Ctx c)) : Option (List Nat) :=
  match r with
  | .ok (ids, _, _) => some ids
  | .error _ => none

/-- Did it panic? -/
def panicked {α : Type} (r : Except Err α) : Bool :=
  match r with
  | .error (.panic _) => true
  | _ => false

theorem answerIds_some {c : Cfg} {r : Except Err (List Nat × List c.N.V × Ctx c)} {ids : List Nat} (h : answerIds r = some ids) :
    ∃ ds o, r = .ok (ids, ds, o) := by
  unfold answerIds at h
  split at h
  · cases h; exact ⟨_, _, rfl⟩
  · cases h

theorem panicked_true {α : Type} {r : Except Err α} (h : panicked r = true) : ∃ msg, r = .error (.panic msg) := by
  unfold panicked at h
  split at h
  · exact ⟨_, rfl⟩
  · cases h

/-- The query (1, 1). -/
def query2 : List ieee32.V := [x32 0x3f800000, x32 0x3f800000]

/-- **C17 and C18 as stated are false**: six items with vectors of length 2.  Because the root lost its children
(`CopyNode`), a search that may inspect everything, and asks for six, finds one item only; so does the default search. -/
theorem C17_C18_refuted : ∃ s s', Session (angular32 4 2) 1 .single sixAdds 1 1 s s' ∧ s'.roots ≠ [] ∧ ∀ w,
    (∃ ds o, s'.getNnsByVector 100 w query2 6 6 s'.createContext = .ok ([0], ds, o)) ∧
    (∃ ds o, s'.getNnsByVector 100 w query2 6 (-1) s'.createContext = .ok ([0], ds, o)) ∧
    (addedIds sixAdds).length = 6 := by
  obtain ⟨s, s', h, hp⟩ := made_with (c := angular32 4 2) (r := Kiss32.new 0) (adds := sixAdds) (trees := 1)
    (fun s' => decide (s'.roots = [9] ∧
      answerIds (Search.run (angular32 4 2) 100 s'.bmem s'.nItems s'.roots query2 6 6 s'.createContext) = some [0] ∧
      answerIds (Search.run (angular32 4 2) 100 s'.bmem s'.nItems s'.roots query2 6 (-1) s'.createContext) = some [0]))
    (angular32_wf (Or.inl rfl) (by decide)) (legalAdds_of (by decide +kernel)) (by decide +kernel) (by decide +kernel)
  obtain ⟨h1, h2, h3⟩ := of_decide_eq_true hp
  refine ⟨s, s', h, by rw [h1]; simp, fun w => ?_⟩
  obtain ⟨N0, B, _⟩ := h.built
  have h0 : 0 < s'.nNodes := by have := B.nNodes; rw [h1] at this; simp at this; omega
  obtain ⟨d1, o1, e1⟩ := answerIds_some h2
  obtain ⟨d2, o2, e2⟩ := answerIds_some h3
  exact ⟨⟨d1, o1, (B.search w h0 _ _ _ _ _).trans e1⟩, ⟨d2, o2, (B.search w h0 _ _ _ _ _).trans e2⟩, by decide +kernel⟩

/-- Items 0 and 20 only, vectors of length 12. -/
def farAdds : List (Nat × List ieee32.V) := (longAdds 21).filter fun p => p.1 = 0 ∨ p.1 = 20

/-- The query (1, 1, 0, …). -/
def query12 : List ieee32.V := x32 0x3f800000 :: x32 0x3f800000 :: List.replicate 10 (x32 0)

/-- **C22 as stated is false**: items 0 and 20 only.  `batchMaxNNS` is 1, but the tree has two items as leaves: asking for
two results panics. -/
theorem C22_refuted : ∃ s s', Session (angular32 4 12) 1 .single farAdds 1 1 s s' ∧
    SplitsKept (angular32 4 12) 1 .single (slotCount farAdds) 1 1 ∧
    s'.createContext.nns.length = 1 ∧ ∀ w,
    ∃ msg, s'.getNnsByVector 100 w query12 2 (-1) s'.createContext = .error (.panic msg) := by
  obtain ⟨s, s', h, hp⟩ := made_with (c := angular32 4 12) (r := Kiss32.new 0) (adds := farAdds) (trees := 1)
    (fun s' => decide (s'.roots = [21] ∧ s'.createContext.nns.length = 1 ∧
      panicked (Search.run (angular32 4 12) 100 s'.bmem s'.nItems s'.roots query12 2 (-1) s'.createContext) = true))
    (angular32_wf (Or.inl rfl) (by decide)) (legalAdds_of (by decide +kernel)) (by decide +kernel) (by decide +kernel)
  obtain ⟨h1, h2, h3⟩ := of_decide_eq_true hp
  refine ⟨s, s', h, splitsKept_of_length h.wf (by decide) h.fits, h2, fun w => ?_⟩
  obtain ⟨N0, B, _⟩ := h.built
  have h0 : 0 < s'.nNodes := by have := B.nNodes; rw [h1] at this; simp at this; omega
  obtain ⟨msg, e⟩ := panicked_true h3
  exact ⟨msg, (B.search w h0 _ _ _ _ _).trans e⟩

/-! ### examples: the hypotheses of the theorems about searches hold together -/

/-- A context with room for 42 candidates. -/
def wideCtx (c : Cfg) : Ctx c := ⟨List.replicate 42 7, List.replicate 42 (c.N.zero, 9)⟩

/-- C16, C17, C18, C19, C20, C21 and C24: one index, whose tree has inner nodes, an ordinary query, a context that is large
enough.  The queries succeed, and the numbers returned are the ones the theorems speak about. -/
example : ∃ s s', Session (angular32 4 12) 1 .single farAdds 1 1 s s' ∧
    SplitsKept (angular32 4 12) 1 .single (slotCount farAdds) 1 1 ∧ (angular32 4 12).N.Lawful ∧
    GoodQuery (angular32 4 12) query12 ∧ s'.roots ≠ [] ∧ addedIds farAdds = [0, 20] ∧
    ((s'.roots.length * ((addedIds farAdds).length - 1) + 1 : Nat) : Int) ≤ 2 ∧
    (∀ i ∈ addedIds farAdds, (angular32 4 12).N.Ordinary (itemDist (angular32 4 12) (lastAdded farAdds) query12 i)) ∧
    s'.roots.length * slotCount farAdds ≤ (wideCtx (angular32 4 12)).nns.length ∧ ∀ w,
    (∃ ds o, s'.getNnsByVector 100 w query12 2 2 (wideCtx _) = .ok ([0, 20], ds, o)) ∧
    (∃ ds o, s'.getNnsByVector 100 w query12 2 (-1) (wideCtx _) = .ok ([0, 20], ds, o)) ∧
    (∃ ds o, s'.getNnsByVector 100 w query12 2 1 (wideCtx _) = .ok ([0], ds, o)) := by
  obtain ⟨s, s', h, hp⟩ := made_with (c := angular32 4 12) (r := Kiss32.new 0) (adds := farAdds) (trees := 1)
    (fun s' => decide (s'.roots = [21] ∧
      answerIds (Search.run (angular32 4 12) 100 s'.bmem s'.nItems s'.roots query12 2 2 (wideCtx _)) = some [0, 20] ∧
      answerIds (Search.run (angular32 4 12) 100 s'.bmem s'.nItems s'.roots query12 2 (-1) (wideCtx _)) = some [0, 20] ∧
      answerIds (Search.run (angular32 4 12) 100 s'.bmem s'.nItems s'.roots query12 2 1 (wideCtx _)) = some [0]))
    (angular32_wf (Or.inl rfl) (by decide)) (legalAdds_of (by decide +kernel)) (by decide +kernel) (by decide +kernel)
  obtain ⟨h1, h2, h3, h4⟩ := of_decide_eq_true hp
  have ha : addedIds farAdds = [0, 20] := by decide +kernel
  refine ⟨s, s', h, splitsKept_of_length h.wf (by decide) h.fits, ieee32_lawful, ⟨rfl, angular_marginOk rfl (by decide)⟩,
    by rw [h1]; simp, ha, by rw [h1, ha]; decide, ?_, by rw [h1]; decide +kernel, fun w => ?_⟩
  · rw [ha]
    have : ∀ i ∈ [0, 20], ieee32.eq (itemDist (angular32 4 12) (lastAdded farAdds) query12 i)
        (itemDist (angular32 4 12) (lastAdded farAdds) query12 i) = true := by decide +kernel
    exact this
  obtain ⟨N0, B, _⟩ := h.built
  have h0 : 0 < s'.nNodes := by have := B.nNodes; rw [h1] at this; simp at this; omega
  obtain ⟨d1, o1, e1⟩ := answerIds_some h2
  obtain ⟨d2, o2, e2⟩ := answerIds_some h3
  obtain ⟨d3, o3, e3⟩ := answerIds_some h4
  exact ⟨⟨d1, o1, (B.search w h0 _ _ _ _ _).trans e1⟩, ⟨d2, o2, (B.search w h0 _ _ _ _ _).trans e2⟩,
    ⟨d3, o3, (B.search w h0 _ _ _ _ _).trans e3⟩⟩

end Annoy
