import Verif.Props.SearchWitness
import Verif.Proof.Ieee
/-!
# The order in which a search visits nodes (C23)

An index with the repository's `float32` angular distance on which a search that may inspect one leaf returns everything on the
other side of the hyperplane, and not the item that was asked for.
-/
namespace Annoy

/-- `alt32` with other functions for addition, multiplication, division (to compute faster). -/
def alt32With (add mul div : BitVec 32 → BitVec 32 → BitVec 32) (f : Nat) : Cfg :=
  angularCfg (ieee32With add mul div) (bvCodec 4) altRng sortNat (sortPairs (ieee32With add mul div)) 4 f

/-- The vector (1, 0, …) of length 16. -/
def eastVec : List ieee32.V := x32 0x3f800000 :: List.replicate 15 (x32 0)

/-- Item 0 has the zero vector, item 1 the vector (1, 0, …), item 18 the vector (-1, 0, …). -/
def groupAdds : List (Nat × List ieee32.V) :=
  [(0, List.replicate 16 (x32 0)), (1, eastVec), (18, x32 0xbf800000 :: List.replicate 15 (x32 0))]

/-- What C23 needs to know of the index `s'`. -/
def nearLast {c : Cfg} (q : List c.N.V) (s' : Idx c) : Bool :=
  decide (s'.roots = [20] ∧
    (match c.D.margin s'.alloc.data (20 * c.L.nodeSize) q with
      | .ok m => c.N.lt m c.N.zero
      | .error _ => false) = true ∧
    walk c.L s'.alloc.data 19 3 (childAt c.L s'.alloc.data 20 0) = some [1] ∧
    walk c.L s'.alloc.data 19 3 (childAt c.L s'.alloc.data 20 1) = some [0, 18] ∧
    answerIds (Search.run c 100 s'.bmem s'.nItems s'.roots q 19 1 s'.createContext) = some [0, 18])

/-- The call succeeded, with a result for which `p` holds. -/
def okAnd {α : Type} (p : α → Bool) : Except Err α → Bool
  | .ok x => p x
  | .error _ => false

theorem made_okAnd {c : Cfg} {r : c.R.σ} {adds : List (Nat × List c.N.V)} {trees : Int} (p : Idx c → Bool)
    (hc : c.WF) (hl : LegalAdds c adds) (hf : c.L.Fits (treeRoom 1 .single (slotCount adds) trees 1))
    (h : okAnd p (made c r adds trees) = true) : ∃ s s', Session c 1 .single adds trees 1 s s' ∧ p s' = true :=
  made_with (r := r) p hc hl hf (by cases hm : made c r adds trees <;> rw [hm] at h <;> exact h)

/-- The computation, with functions for the arithmetic. -/
def nearLastWith (add mul div : BitVec 32 → BitVec 32 → BitVec 32) : Bool :=
  okAnd (nearLast (c := alt32With add mul div 16) eastVec) (made (alt32With add mul div 16) false groupAdds 1)

/-- **C23 as stated is false.**  The root of the only tree has item 1 on its left and items 0 and 18 on its right.  The query,
which is the vector of item 1, lies on the left side of the hyperplane (negative margin).  A search that may inspect one leaf looks at
the right side, and returns items 0 and 18, but not item 1. -/
theorem C23_refuted : ∃ s s', Session (alt32 16) 1 .single groupAdds 1 1 s s' ∧ s'.roots = [20] ∧
    lastAdded groupAdds 1 = some eastVec ∧
    (∃ m, (alt32 16).D.margin s'.alloc.data (20 * (alt32 16).L.nodeSize) eastVec = .ok m ∧ ieee32.lt m ieee32.zero = true) ∧
    walk (alt32 16).L s'.alloc.data 19 3 (childAt (alt32 16).L s'.alloc.data 20 0) = some [1] ∧
    walk (alt32 16).L s'.alloc.data 19 3 (childAt (alt32 16).L s'.alloc.data 20 1) = some [0, 18] ∧
    ∀ w, ∃ ds o, s'.getNnsByVector 100 w eastVec 19 1 s'.createContext = .ok ([0, 18], ds, o) := by
  have key : nearLastWith ieee32.add ieee32.mul ieee32.div = true := fast32 nearLastWith (by decide +kernel)
  unfold nearLastWith at key
  obtain ⟨s, s', h, hp⟩ := made_okAnd (c := alt32 16) (r := false) (adds := groupAdds) (trees := 1) (nearLast (c := alt32 16) eastVec)
    (alt32_wf (by decide)) (legalAdds_of (by decide +kernel)) (by decide +kernel) key
  obtain ⟨h1, h2, h3, h4, h5⟩ := of_decide_eq_true hp
  refine ⟨s, s', h, h1, by decide +kernel, ?_, h3, h4, fun w => ?_⟩
  · split at h2
    · next m hm => exact ⟨m, hm, h2⟩
    · cases h2
  · obtain ⟨N0, B, _⟩ := h.built
    have h0 : 0 < s'.nNodes := by have := B.nNodes; rw [h1] at this; simp at this; omega
    obtain ⟨d1, o1, e1⟩ := answerIds_some h5
    exact ⟨d1, o1, (B.search w h0 _ _ _ _ _).trans e1⟩

end Annoy
