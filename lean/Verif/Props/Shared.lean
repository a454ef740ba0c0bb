import Verif.Props.History
import Verif.Props.Files
import Verif.Props.NoTrees
import Verif.Props.Kiss
/-!
# Indexes that share a file system (C105)
-/
namespace Annoy

/-- Indexes of any kind are saved under other names than `path`, completely or up to a crash, any number of times. -/
inductive Elsewhere (path : String) : World → World → Prop
  | refl (w) : Elsewhere path w w
  | tail {w w1 w2} {c : Cfg} {s : Idx c} {p : String} : Elsewhere path w w1 → p ≠ path → s.SaveMoment w1 p w2 → Elsewhere path w w2

variable {c : Cfg}

/-- The end of `Save` is one of its moments. -/
theorem Idx.save_moment {bk : Backend} {w w' : World} {s s' : Idx c} {path : String} {e : GoErr} (h : s.save bk w path = .ok (e, s', w')) :
    s.SaveMoment w path w' := by
  unfold Idx.save at h
  split at h
  · cases h; exact .before
  · cases hc : w.create path with
    | none => rw [hc] at h; cases h; exact .before
    | some x =>
      obtain ⟨i, w1⟩ := x
      rw [hc] at h
      dsimp only at h
      simp only [bind, Except.bind] at h
      cases hb : s.saveBytes w1 with
      | error e => rw [hb] at h; cases h
      | ok b =>
        rw [hb] at h
        cases b with
        | none => cases h; exact .failed i _ hc
        | some bytes =>
          dsimp only at h
          split at h
          · cases h
          · cases h
            have := Idx.SaveMoment.writing (s := s) (path := path) i _ bytes bytes.length hc hb
            rwa [List.take_length] at this

/-- Nothing happens to the file. -/
theorem Elsewhere.same {path : String} {w w' : World} (h : Elsewhere path w w') (ht : w.Tidy) {i : Nat} (hi : w.dir path = some i) :
    w'.Tidy ∧ w'.dir path = some i ∧ w'.content i = w.content i := by
  induction h with
  | refl => exact ⟨ht, hi, rfl⟩
  | tail _ hp hm ih =>
    obtain ⟨t1, t2, t3⟩ := ih
    cases hm with
    | before => exact ⟨t1, t2, t3⟩
    | writing j w1 bytes k hc hb =>
      obtain ⟨a1, -, -, a4, a5⟩ := World.create_tidy hc t1
      obtain ⟨b1, b2⟩ := a5 path i (Ne.symm hp) t2
      refine ⟨a1.write _ _, (a4 path (Ne.symm hp)).trans t2, ?_⟩
      unfold World.write
      dsimp only
      rw [if_neg b1, b2, t3]
    | failed j w1 hc =>
      obtain ⟨a1, -, -, a4, a5⟩ := World.create_tidy hc t1
      obtain ⟨b1, b2⟩ := a5 path i (Ne.symm hp) t2
      exact ⟨a1, (a4 path (Ne.symm hp)).trans t2, b2.trans t3⟩

/-- **C105**: an index loaded from a file, with either back end, answers everything as before while other indexes are saved under other names.
(Missing: saves under the same name, where it is false for mapped files, `C105_refuted`, and true for the other back end, `C105_copy`.) -/
theorem C105_other_files_partial {bk : Backend} {w w' : World} {path : String} {u t : Idx c} (hl : u.load bk w path = .ok (.nil, t)) (ht : w.Tidy)
    (h : Elsewhere path w w') : Alike w t w' t := by
  obtain ⟨i, b, h1, h2, -, -, -, -, -, -, -, -, hn⟩ := Idx.load_ok hl
  obtain ⟨-, -, h3⟩ := h.same ht h1
  refine Alike.of_fields ?_ rfl rfl rfl rfl
  unfold Idx.mem
  rw [hn]
  cases bk with
  | gc => rfl
  | mmap =>
    show Handle.block w' (.mmap i b.length) = Handle.block w (.mmap i b.length)
    show (⟨min b.length (w'.content i).length, (Block.ofList (w'.content i)).get⟩ : Block) = ⟨min b.length (w.content i).length, _⟩
    rw [h3]

/-- With copies in memory it does not matter what happens to files. -/
theorem C105_copy {w : World} {path : String} {u t : Idx c} (hl : u.load .gc w path = .ok (.nil, t)) (w' : World) : Alike w t w' t := by
  obtain ⟨i, b, -, -, -, -, -, -, -, -, -, -, hn⟩ := Idx.load_ok hl
  refine Alike.of_fields ?_ rfl rfl rfl rfl
  unfold Idx.mem
  rw [hn]
  rfl

/-- **C105 as stated is false**: an index that has a file mapped turns into another one when another index of its kind is saved under the same name,
whatever the two indexes hold: it answers the vectors of the other index (as far as its file reached). -/
theorem C105_refuted {numCPU numCPU' : Nat} {pol pol' : BuildPolicy} {adds adds' : List (Nat × List c.N.V)} {trees trees' workers workers' : Int}
    {s s' r r' : Idx c} (hs : Session c numCPU pol adds trees workers s s') (hr : Session c numCPU' pol' adds' trees' workers' r r')
    (hn : 2 ≤ slotCount adds') (hroots : r'.roots ≠ []) (hk : c.L.CountKept (slotCount adds')) {w : World} {path : String} (hf : FileOf s' w path)
    {u t : Idx c} (hl : u.load .mmap w path = .ok (.nil, t)) (hcr : w.creatable path = true) (bk : Backend) :
    ∃ r'' w', r'.save bk w path = .ok (.nil, r'', w') ∧
      ∀ i v v', lastAdded adds i = some v → lastAdded adds' i = some v' → t.getItem w i = .ok v ∧ t.getItem w' i = .ok v' := by
  obtain ⟨r'', w', h1, h2, -⟩ := C27_save_load_partial hr hn hroots hk bk w path hcr
  refine ⟨r'', w', h1, fun i v v' hv hv' => ?_⟩
  obtain ⟨j, b, d1, d2, -, -, -, -, -, -, -, -, hnodes⟩ := Idx.load_ok hl
  -- the same file
  have hd' : w'.dir path = some j := by
    have hm := Idx.save_moment h1
    have hcj : ∀ {k w1}, w.create path = some (k, w1) → w1.dir path = some j := by
      intro k w1 hc
      unfold World.create at hc
      rw [if_pos hcr, d1] at hc
      cases hc
      exact d1
    cases hm with
    | before => exact d1
    | writing k w1 bytes n hc hb => exact (hcj hc : w1.dir path = some j)
    | failed k w1 hc => exact hcj hc
  have hb : ∀ {numCPU : Nat} {pol : BuildPolicy} {adds : List (Nat × List c.N.V)} {trees workers : Int} {s s' : Idx c} {w : World} {b : List Byte} {v : List c.N.V},
      Session c numCPU pol adds trees workers s s' → FileOf s' w path → w.dir path = some j → w.content j = b → lastAdded adds i = some v →
      c.L.addr i = i * c.L.nodeSize ∧ i * c.L.nodeSize + c.L.nodeSize ≤ b.length ∧ Node.vec c.L c.C (Block.ofList b).get (i * c.L.nodeSize) = v := by
    intro numCPU pol adds trees workers s s' w b v hs hf hd hc hv
    obtain ⟨bytes, g1, g2⟩ := hf
    have e : b = bytes := by
      rw [← hc]
      simpa [World.read, hd] using g2
    subst e
    obtain ⟨b', inner, k1, k2, k3, -⟩ := C56_file_layout hs w
    rw [g1] at k1
    cases k1
    have hlt : i < slotCount adds := lastAdded_lt _ _ (by rw [hv]; rfl)
    obtain ⟨N0, B, -⟩ := hs.built
    have hB := B.getNode w (i := i) (lt_of_lt_of_le hlt B.n_le_nNodes)
    refine ⟨(Idx.getNode_ok hB).1.symm, ?_, (k3 i v hv).2⟩
    rw [k2, ← Nat.succ_mul]
    exact Nat.mul_le_mul_right _ (by omega)
  obtain ⟨a1, a2, a3⟩ := hb hs hf d1 d2 hv
  obtain ⟨b1, b2, b3⟩ := hb hr h2 hd' rfl hv'
  constructor
  · have hm : t.mem w = ⟨min b.length (w.content j).length, (Block.ofList (w.content j)).get⟩ := by unfold Idx.mem; rw [hnodes]; rfl
    unfold Idx.getItem
    rw [hm, d2, Idx.getNode_eq (by rw [a1, min_self]; exact a2), a1]
    exact congrArg Except.ok a3
  · have hm : t.mem w' = ⟨min b.length (w'.content j).length, (Block.ofList (w'.content j)).get⟩ := by unfold Idx.mem; rw [hnodes]; rfl
    unfold Idx.getItem
    rw [hm, Idx.getNode_eq (by rw [a1]; exact le_min a2 b2), a1]
    exact congrArg Except.ok b3

/-- The twenty items the other way round. -/
def turnedAdds : List (Nat × List ieee32.V) := (longAdds 20).map fun p => (19 - p.1, p.2)

/-- The hypotheses of `C105_refuted` and `C105_other_files_partial`, with different vectors for item 0. -/
example : ∃ s s' r r' w t r'' w', Session (angular32 4 12) 1 .single (longAdds 20) 3 1 s s' ∧ Session (angular32 4 12) 1 .single turnedAdds 3 1 r r' ∧
    w.Tidy ∧ FileOf s' w "a" ∧ (Idx.new (angular32 4 12) (Kiss32.new 0) 0).load .mmap w "a" = .ok (.nil, t) ∧
    r'.save .mmap w "a" = .ok (.nil, r'', w') ∧ t.getItem w 0 ≠ t.getItem w' 0 ∧
    ∃ r3 w3, r'.save .mmap w "b" = .ok (.nil, r3, w3) ∧ Elsewhere "a" w w3 := by
  have hx : Index32 (angular32 4 12) := .angular32 (by decide) (by decide)
  obtain ⟨s, s', -, h1, h2, -⟩ := C76_build (c := angular32 4 12) hx 1 (longAdds 20) (legalAdds_of (by decide +kernel)) (Kiss32.new 0) 0 3 1 (by decide +kernel)
  obtain ⟨r, r', -, g1, g2, -⟩ := C76_build (c := angular32 4 12) hx 1 turnedAdds (legalAdds_of (by decide +kernel)) (Kiss32.new 0) 0 3 1 (by decide +kernel)
  have hs : s'.roots ≠ [] := by intro e; have := h2 (by decide); rw [e] at this; cases this
  have hr : r'.roots ≠ [] := by intro e; have := g2 (by decide); rw [e] at this; cases this
  have k1 : 2 ≤ slotCount (longAdds 20) := by decide +kernel
  have k2 : 2 ≤ slotCount turnedAdds := by decide +kernel
  have c1 : (angular32 4 12).L.CountKept (slotCount (longAdds 20)) := by unfold Layout.CountKept; decide +kernel
  have c2 : (angular32 4 12).L.CountKept (slotCount turnedAdds) := by unfold Layout.CountKept; decide +kernel
  have hf : FileOf s' (oneFile "a" (s'.alloc.block.prefix (s'.nNodes * (angular32 4 12).L.nodeSize))) "a" := h1.fileOf.2 (oneFile_read "a" _)
  obtain ⟨t, l1, -⟩ := h1.reload k1 hs c1 hf .mmap (Idx.new (angular32 4 12) (Kiss32.new 0) 0)
  obtain ⟨r'', w', q1, q2⟩ := C105_refuted h1 g1 k2 hr c2 hf l1 rfl .mmap
  obtain ⟨r3, w3, p1, -⟩ := C27_save_load_partial g1 k2 hr c2 .mmap (oneFile "a" (s'.alloc.block.prefix (s'.nNodes * (angular32 4 12).L.nodeSize))) "b" rfl
  refine ⟨s, s', r, r', _, t, r'', w', h1, g1, oneFile_tidy _ _, hf, l1, q1, ?_, r3, w3, p1, .tail (.refl _) (by decide) (Idx.save_moment p1)⟩
  have d : ∃ v v', lastAdded (longAdds 20) 0 = some v ∧ lastAdded turnedAdds 0 = some v' ∧ v ≠ v' := by
    have h1 : (lastAdded (longAdds 20) 0).isSome = true := by decide +kernel
    have h2 : (lastAdded turnedAdds 0).isSome = true := by decide +kernel
    obtain ⟨v, h1⟩ := Option.isSome_iff_exists.1 h1
    obtain ⟨v', h2⟩ := Option.isSome_iff_exists.1 h2
    refine ⟨v, v', h1, h2, fun e => ?_⟩
    have h3 : (lastAdded (longAdds 20) 0).map (fun v => v.map BitVec.toNat) ≠ (lastAdded turnedAdds 0).map (fun v => v.map BitVec.toNat) := by decide +kernel
    rw [h1, h2, e] at h3
    exact h3 rfl
  obtain ⟨v, v', d1, d2, d3⟩ := d
  obtain ⟨e1, e2⟩ := q2 0 v v' d1 d2
  rw [e1, e2]
  intro h
  injection h with h
  exact d3 h

end Annoy
