import Verif.Props.SaveLoad
import Verif.Props.Finish
/-!
# Loads that go wrong (C27, C28, C29, C31) and examples for the theorems about files
-/
namespace Annoy

/-- A world with a single file. -/
def oneFile (path : String) (bytes : List Byte) : World :=
  ⟨fun p => if p = path then some 0 else none, fun _ => bytes, 1, fun _ => true⟩

theorem oneFile_read (path : String) (bytes : List Byte) : (oneFile path bytes).read path = some bytes := by
  simp [oneFile, World.read]

section
variable {c : Cfg} {numCPU : Nat} {pol : BuildPolicy} {adds : List (Nat × List c.N.V)} {trees workers : Int}
  {s s' : Idx c}

/-- There is a world that holds the file of a given built index. -/
theorem Session.file (h : Session c numCPU pol adds trees workers s s') (path : String) : ∃ w, FileOf s' w path :=
  ⟨_, h.fileOf.2 (oneFile_read path _)⟩

/-! ### C31 -/

/-- **C31 is false** for every index with one item slot, however it was built: `Load` of its file reads outside the file (the scan for
roots finds the count 1 everywhere, also in the item itself, and wraps below node 0), so `Save`, which loads what it wrote, does so as
well. -/
theorem C31_refuted (h : Session c numCPU pol adds trees workers s s') (hn : slotCount adds = 1) (hf0 : 0 < c.L.f) :
    (∀ (w : World) (path : String), FileOf s' w path → ∀ (bk : Backend) (u : Idx c), u.load bk w path = .error .oob) ∧
    ∀ (w : World) (path : String), w.creatable path = true → ∀ bk, s'.save bk w path = .error .oob := by
  have key : ∀ (w : World) (path : String), FileOf s' w path → ∀ (bk : Backend) (u : Idx c), u.load bk w path = .error .oob := by
    intro w path hf bk u
    obtain ⟨N0, B, _⟩ := h.built
    rw [hn] at B
    have hK := h.wf.layout.K_ge
    refine B.load_one h.wf rfl ?_ ?_ (h.fileOf.1 hf) u
    · unfold Layout.CountKept
      exact Nat.one_lt_two_pow (by omega)
    · obtain ⟨ts, h1, h2, h3⟩ := B.forest (Or.inr (by omega))
      intro x hx hx'
      have : x ∈ ts.flatMap Tree.inner := h3.mem_iff.2 (List.mem_range'_1.2 ⟨hx, by omega⟩)
      obtain ⟨t, ht, hxt⟩ := List.mem_flatMap.1 this
      have := h2 t ht
      cases t with
      | item i => exact this.elim
      | hole i => exact this.elim
      | bucket i ids =>
        simp only [Tree.inner, List.mem_singleton] at hxt
        subst hxt
        exact this.2.2.1
      | split i l r => obtain ⟨_, _, _, h4, _⟩ := this; omega
  refine ⟨key, fun w path hcr bk => ?_⟩
  obtain ⟨N0, B, _⟩ := h.built
  obtain ⟨i, w1, c1, c2, c3⟩ := World.create_write hcr
  have hsb := B.saveBytes h.wf w1
  unfold Idx.save
  rw [if_neg (by simp [B.built]), c1]
  simp only [hsb, bind, Except.bind]
  rw [key _ path (h.fileOf.2 (c3 _))]

/-- What is left of **C31**: the index is built and searched, and the bytes that `Save` hands to the file system hold the item.  (Missing:
everything that needs `Load`, see `C31_refuted`.) -/
theorem C31_one_item_partial (h : Session c numCPU pol adds trees workers s s') (hN : c.N.Lawful) (hn : slotCount adds = 1)
    (hroots : s'.roots ≠ []) (w : World) :
    (∃ bytes v, s'.saveBytes w = .ok (some bytes) ∧ lastAdded adds 0 = some v ∧
      Node.vec c.L c.C (Block.ofList bytes).get 0 = v) ∧
    ∀ {query : List c.N.V}, GoodQuery c query → ∀ {fuel : Nat} {ctx ctx' : Ctx c} {k : Nat} {ids : List Nat} {ds : List c.N.V},
      0 < k → s'.getNnsByVector fuel w query k (-1) ctx = .ok (ids, ds, ctx') → ids = [0] := by
  obtain ⟨N0, B, _⟩ := h.built
  rw [hn] at B
  have hK := h.wf.layout.K_ge
  obtain ⟨v, hv⟩ := Option.isSome_iff_exists.1 (B.top (by omega))
  have hids : addedIds adds = [0] := by
    unfold addedIds
    rw [hn]
    simp [liveOf, hv]
  constructor
  · obtain ⟨bytes, inner, h1, _, h3, _⟩ := C56_file_layout h w
    have := (h3 0 v hv).2
    rw [Nat.zero_mul] at this
    exact ⟨bytes, v, h1, hv, this⟩
  · intro query hq fuel ctx ctx' k ids ds hk hr
    have hs : SplitsKept c numCPU pol (slotCount adds) trees workers := Or.inl (by omega)
    obtain ⟨h1, h2⟩ := C18_default_count_partial h hs hN w hq hroots hr
    obtain ⟨S, h3, h4, h5⟩ := C16_sound h hN w hq hr
    rw [hids] at h1
    have h1 : ids.length = 1 := by rw [h1]; simp; omega
    obtain ⟨x, rfl⟩ := List.length_eq_one_iff.1 h1
    have hx := h4 x (h5.sub x (by simp))
    obtain ⟨y, hy⟩ := Option.isSome_iff_exists.1 hx
    have := B.bound x y hy
    rw [show x = 0 by omega]

end

/-- An index with one item, loaded: the hypotheses of C31. -/
example : ∃ s s', Session (alt32 12) 1 .single (longAdds 1) 3 1 s s' ∧ slotCount (longAdds 1) = 1 ∧ s'.roots.length = 3 ∧
    0 < (alt32 12).L.f ∧ (alt32 12).N.Lawful ∧ ∃ w, FileOf s' w "x" := by
  obtain ⟨s, s', _, h, h1, _⟩ := C10_single (alt32_wf (f := 12) (by decide))
    (Conc.angular_total altRng_inRange (by decide)) (alt32_balanced 12) 1 (longAdds 1)
    (legalAdds_of (by decide +kernel)) false 0 3 1 (by decide +kernel)
  exact ⟨s, s', h, by decide +kernel, h1 (by decide), by decide, ieee32_lawful, h.file "x"⟩

/-! ### C27 -/

/-- `n` items with vectors of length 1. -/
def shortAdds (n : Nat) : List (Nat × List ieee32.V) := (List.range n).map fun i => (i, [x32 (0x3f800000 + i)])

/-- C27_refuted is about something: 300 items with vectors of length 1. -/
example : ∃ s s', Session (alt32 1) 1 .single (shortAdds 300) 1 1 s s' ∧ s'.roots.length = 1 ∧
    ¬ (alt32 1).L.CountKept (slotCount (shortAdds 300)) ∧ ∃ w, FileOf s' w "x" := by
  obtain ⟨s, s', _, h, h1, _⟩ := C10_single (alt32_wf (f := 1) (by decide))
    (Conc.angular_total altRng_inRange (by decide)) (alt32_balanced 1) 1 (shortAdds 300)
    (legalAdds_of (by decide +kernel)) false 0 1 1 (by decide +kernel)
  exact ⟨s, s', h, h1 (by decide), by unfold Layout.CountKept; decide +kernel, h.file "x"⟩

/-! ### C28, C29 -/

/-- **C28 and C29 as stated are false**: two items with vectors of length 2.  Before `Save` the index answers with both items.  In
its file the copy of the root bucket has lost the children, and `Load` takes the bucket itself for a duplicate of its copy.  From
the only root that is left a walk finds item 0 twice, and no search, however exhaustive, ever returns item 1. -/
theorem C28_C29_refuted : ∃ s s', Session (angular32 4 2) 1 .single denseAdds 1 1 s s' ∧ Dense denseAdds ∧ s'.roots ≠ [] ∧
    (∀ w, (∃ ds o, s'.getNnsByVector 100 w query2 2 100 s'.createContext = .ok ([0, 1], ds, o)) ∧
      (∃ ds o, s'.getNnsByVector 100 w query2 2 (-1) s'.createContext = .ok ([0, 1], ds, o))) ∧
    ∀ w path, FileOf s' w path → ∀ bk (u : Idx (angular32 4 2)), ∃ t, u.load bk w path = .ok (.nil, t) ∧
      t.roots = [3] ∧ walk (angular32 4 2).L (t.mem w).get t.nItems 1 3 = some [0, 0] ∧
      (∃ ds o, t.getNnsByVector 100 w query2 2 100 t.createContext = .ok ([0], ds, o)) ∧
      (∃ ds o, t.getNnsByVector 100 w query2 2 (-1) t.createContext = .ok ([0], ds, o)) := by
  obtain ⟨s, s', h, hp⟩ := made_with (c := angular32 4 2) (r := Kiss32.new 0) (adds := denseAdds) (trees := 1)
    (fun s' => decide (s'.roots = [2] ∧ s'.nNodes = 4 ∧ s'.nItems = 2 ∧
      answerIds (Search.run (angular32 4 2) 100 s'.bmem s'.nItems s'.roots query2 2 100 s'.createContext) = some [0, 1] ∧
      answerIds (Search.run (angular32 4 2) 100 s'.bmem s'.nItems s'.roots query2 2 (-1) s'.createContext) = some [0, 1] ∧
      childAt (angular32 4 2).L s'.alloc.data 2 0 = childAt (angular32 4 2).L s'.alloc.data 3 0 ∧
      walk (angular32 4 2).L s'.alloc.data 2 1 3 = some [0, 0] ∧
      answerIds (Search.run (angular32 4 2) 100 ⟨4 * (angular32 4 2).L.nodeSize, s'.alloc.data⟩ 2 [3] query2 2 100 s'.createContext) =
        some [0] ∧
      answerIds (Search.run (angular32 4 2) 100 ⟨4 * (angular32 4 2).L.nodeSize, s'.alloc.data⟩ 2 [3] query2 2 (-1) s'.createContext) =
        some [0]))
    (angular32_wf (Or.inl rfl) (by decide)) (legalAdds_of (by decide +kernel)) (by decide +kernel) (by decide +kernel)
  obtain ⟨h1, h2, h3, h4, h5, h6, h7, h8, h9⟩ := of_decide_eq_true hp
  have hsl : slotCount denseAdds = 2 := by decide +kernel
  refine ⟨s, s', h, by unfold Dense; decide +kernel, by rw [h1]; simp, fun w => ?_, fun w path hf bk u => ?_⟩
  · obtain ⟨N0, B, _⟩ := h.built
    obtain ⟨d1, o1, e1⟩ := answerIds_some h4
    obtain ⟨d2, o2, e2⟩ := answerIds_some h5
    exact ⟨⟨d1, o1, (B.search w (by omega) _ _ _ _ _).trans e1⟩, ⟨d2, o2, (B.search w (by omega) _ _ _ _ _).trans e2⟩⟩
  · obtain ⟨t, l1, N0, B, _, R⟩ := h.reload (by decide +kernel) (by rw [h1]; simp)
      (by unfold Layout.CountKept; decide +kernel) hf bk u
    have hN := B.nNodes
    rw [h1, h2] at hN
    have R : s'.Reloaded 2 N0 w t := (congrArg (fun n => s'.Reloaded n N0 w t) hsl).mp R
    have hnI := R.nItems
    have hN : N0 = 3 := by simpa using hN.symm
    have hroots : t.roots = [3] := by
      obtain ⟨j, j1, j2, _, _, j5⟩ := R.roots
      obtain rfl : j = 1 := by omega
      rw [h2, if_pos (by exact h6)] at j5
      exact j5
    have hmem : t.mem w = ⟨4 * (angular32 4 2).L.nodeSize, s'.alloc.data⟩ := by rw [R.mem, h2]
    have hctx : t.createContext = s'.createContext := by
      unfold Idx.createContext
      rw [R.nns, R.nNodes]
    have hrun : ∀ b, t.getNnsByVector 100 w query2 2 b t.createContext =
        Search.run (angular32 4 2) 100 ⟨4 * (angular32 4 2).L.nodeSize, s'.alloc.data⟩ 2 [3] query2 2 b s'.createContext := by
      intro b
      unfold Idx.getNnsByVector
      rw [hmem, hnI, hroots, hctx]
    obtain ⟨d1, o1, e1⟩ := answerIds_some h8
    obtain ⟨d2, o2, e2⟩ := answerIds_some h9
    refine ⟨t, l1, hroots, ?_, ⟨d1, o1, (hrun _).trans e1⟩, ⟨d2, o2, (hrun _).trans e2⟩⟩
    rw [hmem, hnI]
    exact h7

/-! ### examples -/

/-- The hypotheses of C16, C17, C18, C27, C28, C29, C56 and C65 about loaded indexes: twenty items, vectors of length 12, three
trees. -/
example : ∃ s s', Session (alt32 12) 1 .single (longAdds 20) 3 1 s s' ∧ 2 ≤ slotCount (longAdds 20) ∧ s'.roots ≠ [] ∧
    (alt32 12).L.CountKept (slotCount (longAdds 20)) ∧ SplitsKept (alt32 12) 1 .single (slotCount (longAdds 20)) 3 1 ∧
    (alt32 12).L.CopiesKept (slotCount (longAdds 20)) ∧ (alt32 12).N.Lawful ∧ GoodQuery (alt32 12) query12 ∧
    ∃ w t, FileOf s' w "x" ∧ w.creatable "x" = true ∧ s'.load .mmap w "x" = .ok (.nil, t) ∧
      ∀ k b : Int, ∃ fuel ctx x, t.getNnsByVector fuel w query12 k b ctx = .ok x := by
  obtain ⟨s, s', _, h, h1, _⟩ := C10_single (alt32_wf (f := 12) (by decide))
    (Conc.angular_total altRng_inRange (by decide)) (alt32_balanced 12) 1 (longAdds 20)
    (legalAdds_of (by decide +kernel)) false 0 3 1 (by decide +kernel)
  have hr : s'.roots ≠ [] := by
    intro h0
    have := h1 (by decide)
    rw [h0] at this
    simp at this
  have hk : (alt32 12).L.CountKept (slotCount (longAdds 20)) := by unfold Layout.CountKept; decide +kernel
  have hs : SplitsKept (alt32 12) 1 .single (slotCount (longAdds 20)) 3 1 := splitsKept_of_length h.wf (by decide) h.fits
  have hck : (alt32 12).L.CopiesKept (slotCount (longAdds 20)) := Or.inl (by decide +kernel)
  have hn : 2 ≤ slotCount (longAdds 20) := by decide +kernel
  have hf := h.fileOf.2 (oneFile_read "x" _)
  obtain ⟨t, l1, _⟩ := h.reload hn hr hk hf .mmap s'
  have hq : GoodQuery (alt32 12) query12 := ⟨rfl, angular_marginOk rfl (by decide)⟩
  obtain ⟨F, hF⟩ := C20_answers_loaded_partial h ieee32_lawful hn hr hk hs hck hf l1
  exact ⟨s, s', h, hn, hr, hk, hs, hck, ieee32_lawful, hq, _, t, hf, rfl, l1,
    fun k b => ⟨F, ⟨List.replicate (t.roots.length * slotCount (longAdds 20)) 0, []⟩, hF _ hq k b _ _ le_rfl (by simp only [List.length_replicate]; exact le_rfl)⟩⟩

end Annoy
