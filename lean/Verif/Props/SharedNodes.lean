import Verif.Proof.Peel
import Verif.Props.Pops
/-!
# C20: trees that share nodes

With `2*sizeof(TIX) < vectorLength < 3*sizeof(TIX)` only the low bytes of the second child of a split node are kept (`CopyNode`).  A node number
that needs more bytes then leads into another tree, and a search visits the nodes of that tree again and again.
-/
namespace Annoy

/-- A generator whose indexes are all 0 and which, after an index below `l`, has the sides "right" for one item, or two if `58 < l`,
and then "left". -/
def peelRng : Rng where
  σ := Nat × Nat
  next s := (s.1, s)
  nextSide s := (if s.1 < (if s.2 ≤ 58 then 1 else 2) then .right else .left, (s.1 + 1, s.2))
  nextIndex _ n := if n = 0 then .error (.panic "integer divide by zero") else .ok (0, (0, n))
  setSeed s _ := s
  getSeed _ := 0
  cloneAndReset s := s

/-- The repository's `float32` angular index for vectors of nine components. -/
def peel32 : Cfg := angularCfg ieee32 (bvCodec 4) peelRng sortNat (sortPairs ieee32) 4 9

theorem peel32_wf : peel32.WF := angular_wf (externals_concrete ieee32_lawful) (Or.inl rfl) (Or.inl rfl) (by decide)

theorem peel_draws {n : Nat} (hn : 2 ≤ n) (r : peelRng.σ) : drawMeans peelRng n r = .ok (0, n) := by
  have hi : ∀ r : peelRng.σ, ∀ k : Nat, 0 < k → peelRng.nextIndex r k = .ok (0, (0, k)) := fun r k hk => if_neg (by omega)
  have hs : ∀ r, drawStep peelRng n r = .ok (0, n) := by
    intro r
    unfold drawStep
    rw [hi r n (by omega)]
    simp only [bind, Except.bind]
    rw [if_pos (by omega)]
  have hk : ∀ k r, iterM (drawStep peelRng n) (k + 1) r = .ok (0, n) := by
    intro k
    induction k with
    | zero => intro r; unfold iterM; rw [hs]; rfl
    | succ k ih => intro r; unfold iterM; rw [hs]; exact ih _
  unfold drawMeans twoMeansPick
  have e : (peelRng.nextIndex (0, n) (n - 1)) = .ok (0, (0, n - 1)) := hi _ _ (by omega)
  simp only [hi r n (by omega), bind, Except.bind]
  rw [e]
  dsimp only
  exact (if_pos (show 0 < n ∧ (if 0 ≥ 0 then 0 + 1 else 0) < n by simp; omega)).trans (hk 199 _)

theorem peel32_peel : Peel peel32 122 (fun l => if l ≤ 58 then 1 else 2) (fun p l => ((p, l) : Nat × Nat)) canon32.fin
    (fun m => Node.vec peel32.L (bvCodec 4) m 0 = zeroVec ieee32 peel32.L.f) where
  fresh := vec_blankFrom (N := ieee32) (C := bvCodec 4) (L := peel32.L) (by decide) fun _ _ => rfl
  split d addrs r m _ h := by
    have e := angular_split_form (N := ieee32) (R := peelRng) (C := bvCodec 4) (L := peel32.L) peel32_wf.layout ieee32_zeroLaws (by decide)
      (by decide) d addrs r m
    refine ⟨_, e.trans (congrArg (Except.map _) (peel_draws h r)), angular_used ieee32_zeroLaws m⟩
  coin p l := rfl
  side m v r hm hv hfin := angular_side_form (N := ieee32) (R := peelRng) (C := bvCodec 4) (L := peel32.L) ieee32_zeroLaws canon32 r hm (by decide) hv hfin
  le99 m h1 h2 := by
    have : ∀ k : Fin 123, 11 < k.val → imbalanceLe99 (k.val - if k.val ≤ 58 then 1 else 2) (if k.val ≤ 58 then 1 else 2) = true := by
      decide +kernel
    exact this ⟨m, by omega⟩ h1
  few m := by by_cases h : m ≤ 58 <;> simp [h]
  K := by decide
  f := by decide

theorem items_added {c : Cfg} (hc : c.WF) (r : c.R.σ) {adds : List (Nat × List c.N.V)} (hl : LegalAdds c adds) {n : Nat} (hn : slotCount adds = n) :
    ∃ s, (Idx.new c r 0).addAll adds = .ok s ∧ s.ItemInv (lastAdded adds) n ∧ s.roots = [] ∧ s.built = false := by
  obtain ⟨s, h1, h2, h3, h4, _⟩ := addAll_spec hc adds _ _ _ (Idx.ItemInv.new c hc.layout r 0) hl
  exact ⟨s, h1, by simpa [hn] using h2, h3, h4⟩

/-- 122 items. -/
def peelAdds : List (Nat × List ieee32.V) := (List.range 122).map fun i => (i, List.replicate 9 (x32 0x3f800000))

theorem peelAdds_all : ∀ i, i < 122 → ∃ v, lastAdded peelAdds i = some v ∧ ∀ x ∈ v, canon32.fin x := by
  intro i hi
  have : ∀ k : Fin 122, lastAdded peelAdds k.val = some (List.replicate 9 (x32 0x3f800000)) := by decide +kernel
  refine ⟨_, this ⟨i, hi⟩, fun x hx => ?_⟩
  rw [List.eq_of_mem_replicate hx]
  show Ieee.f32.mag (BitVec.toNat (x32 0x3f800000)) < Ieee.f32.infBits
  decide +kernel

/-- The roots, the number of nodes and the nodes of the index. -/
theorem peel_plan : (Idx.plans 122 11 (fun l => if l ≤ 58 then 1 else 2) 4 122).1 = [233, 345, 457, 569] ∧
    (Idx.plans 122 11 (fun l => if l ≤ 58 then 1 else 2) 4 122).2.1 = 570 ∧
    [233, 345, 457, 569].map (Idx.weigh 122 (Idx.plans 122 11 (fun l => if l ≤ 58 then 1 else 2) 4 122).2.2 1000) = [159, 159, 159, 4223] := by
  decide +kernel

/-- **C20 is false in general**: an index of 122 items, four trees and 574 nodes, and a query with room for everything, whose answer needs
more than `2*(number of nodes)+1` pops per root: the search that is cut off after that many pops has not ended, the longer one answers. -/
theorem C20_bound_refuted (w : World) : ∃ (s s' : Idx peel32) (query : List ieee32.V) (b : Int) (ctx : Ctx peel32) (fuel : Nat),
    Session peel32 1 .single peelAdds 4 1 s s' ∧ GoodQuery peel32 query ∧ s'.nItems = 122 ∧ s'.nNodes = 574 ∧ s'.roots.length = 4 ∧
    (∃ x, s'.getNnsByVector fuel w query 10 b ctx = .ok x) ∧
    ∀ fuel', fuel' ≤ s'.roots.length * (2 * s'.nNodes + 1) + 1 → ¬∃ x, s'.getNnsByVector fuel' w query 10 b ctx = .ok x := by
  have hc := peel32_wf
  have hslots : slotCount peelAdds = 122 := by decide +kernel
  have hleg : LegalAdds peel32 peelAdds := legalAdds_of (by decide +kernel)
  have hfit : peel32.L.Fits (Idx.buildBound 122 (4 : Nat)) := by decide +kernel
  obtain ⟨p1, p2, p3⟩ := peel_plan
  have hK : peel32.L.K = 11 := by decide
  obtain ⟨s, h1, h2', h3, h4⟩ := items_added hc (0, 0) hleg hslots
  obtain ⟨s', g1, g2, g3, g4⟩ := Idx.peel_build hc peel32_peel h2' h4 h3 peelAdds_all (by rw [hK]; omega) 4 hfit (by
    rw [hK, p2]; decide +kernel)
  rw [hK] at g2 g3 g4
  rw [p1] at g2
  rw [p2] at g3
  have hS : Session peel32 1 .single peelAdds 4 1 s s' := ⟨hc, hleg, ⟨(0, 0), 0, h1⟩, by
    show peel32.L.Fits (Idx.buildBound (slotCount peelAdds) 4)
    rw [hslots]; exact hfit, .single 1 122 5 g1⟩
  obtain ⟨N0, B, -⟩ := hS.built
  have hq : GoodQuery peel32 (List.replicate 9 (x32 0x3f800000)) := ⟨rfl, angular_marginOk rfl (by decide)⟩
  obtain ⟨ts, S, -⟩ := hS.searchable w
  have hn : s'.nItems = 122 := B.nItems.trans hslots
  have hmem := (B.mem_eq w (by omega)).1
  have hbig : 4700 ≤ Tree.sizes ts := by
    have hr := S.roots
    have hw := S.walk
    rw [g2] at hr
    rw [hn, hmem] at hw
    have key : ∀ t ∈ ts, Idx.weigh 122 (Idx.plans 122 11 (fun l => if l ≤ 58 then 1 else 2) 4 122).2.2 1000 t.root ≤ t.size :=
      fun t ht => Idx.weigh_le g4 1000 (hw t ht)
    have e : (ts.map fun t => Idx.weigh 122 (Idx.plans 122 11 (fun l => if l ≤ 58 then 1 else 2) 4 122).2.2 1000 t.root).sum = 4700 := by
      have := congrArg (List.map (Idx.weigh 122 (Idx.plans 122 11 (fun l => if l ≤ 58 then 1 else 2) 4 122).2.2 1000)) hr
      rw [List.map_map, p3] at this
      exact (congrArg List.sum this).trans rfl
    rw [← e]
    exact List.sum_le_sum key
  refine ⟨s, s', List.replicate 9 (x32 0x3f800000), ((ts.flatMap Tree.items).length + 1 : Int),
    ⟨List.replicate (ts.flatMap Tree.items).length 0, List.replicate (ts.flatMap Tree.items).length (ieee32.zero, 0)⟩, Tree.sizes ts + 1,
    hS, hq, hn, by omega, by rw [g2]; rfl, ?_, ?_⟩
  · rcases Search.outcome hc ieee32_lawful S hq 10 ((ts.flatMap Tree.items).length + 1 : Int) (Nat.lt_succ_self _)
      ⟨List.replicate (ts.flatMap Tree.items).length 0, List.replicate (ts.flatMap Tree.items).length (ieee32.zero, 0)⟩ with h | ⟨h, -⟩
    · exact h
    · simp at h
  · rintro fuel' hf ⟨x, hx⟩
    have := Search.run_work hc S hq.margin (by omega) (by omega) hx
    rw [g2, g3] at hf
    simp at hf
    omega

end Annoy
