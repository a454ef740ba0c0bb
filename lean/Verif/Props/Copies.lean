import Verif.Props.Shared
import Verif.Props.AnyMemory
/-!
# Copies of copies (C127)

A loaded index that is saved under another name gives the same file, byte by byte, whatever the bytes are.
-/
namespace Annoy
variable {c : Cfg}

/-- `Load` depends on the bytes of a file only. -/
theorem Idx.load_same {bk bk' : Backend} {w w' : World} {path path' : String} {u u' t : Idx c} (hl : u.load bk w path = .ok (.nil, t))
    (he : w'.read path' = w.read path) : ∃ t', u'.load bk' w' path' = .ok (.nil, t') ∧ Alike w t w' t' := by
  obtain ⟨i, b, h1, h2, h3, h4, h5, h6, h7, h8, ⟨roots, h9, h10⟩, h11, h⟩ := Idx.load_ok hl
  have hr : w'.read path' = some b := by rw [he]; simp [World.read, h1, h2]
  obtain ⟨k, k1, k2⟩ := Option.map_eq_some_iff.1 hr
  obtain ⟨b1, l1⟩ := Idx.load_bytes (bk := bk') k1 k2 h3 u'
  rw [if_neg (by simpa using h4)] at l1
  simp only [← h6, h9, bind, Except.bind, h10, Option.getD_some, h11] at l1
  exact ⟨_, l1, Alike.of_fields (b1.trans h5.symm) rfl rfl rfl rfl⟩

/-- **C127**: an index loaded from any file that `Load` takes is saved under another name without an error; both files then hold the same bytes,
and the index answers everything as before. -/
theorem C127_copy {bk bk' : Backend} {w : World} {path : String} {u t : Idx c} (hl : u.load bk w path = .ok (.nil, t)) (ht : w.Tidy)
    (hlt : ∀ bytes, w.read path = some bytes → bytes.length < c.L.range) {path' : String} (hp : path' ≠ path) (hcr : w.creatable path' = true) :
    ∃ t' w', t.save bk' w path' = .ok (.nil, t', w') ∧ w'.read path' = w.read path ∧ w'.read path = w.read path ∧ w'.Tidy ∧ w'.creatable = w.creatable ∧
      Alike w t w' t' := by
  obtain ⟨i, b, h1, h2, h3, h4, h5, h6, h7, h8, -, -, h⟩ := Idx.load_ok hl
  have hr : w.read path = some b := by simp [World.read, h1, h2]
  have hlt := hlt b hr
  obtain ⟨j, w2, c1, _, c3⟩ := World.create_write hcr
  obtain ⟨-, a2, -, -, a5⟩ := World.create_tidy c1 ht
  obtain ⟨b1, b2⟩ := a5 path i (Ne.symm hp) h1
  have hn : t.nNodes * c.L.nodeSize = b.length := by
    rw [h6, c.L.wrap_eq hlt]
    exact Nat.div_mul_cancel (Nat.dvd_of_mod_eq_zero h4)
  have hblk : (bk.handle i b).block w2 = Block.ofList b := by
    cases bk with
    | gc => rfl
    | mmap =>
      show (⟨min b.length (w2.content i).length, (Block.ofList (w2.content i)).get⟩ : Block) = _
      rw [b2, h2, min_self]
      rfl
  have hsb : t.saveBytes w2 = .ok (some b) := by
    unfold Idx.saveBytes
    rw [h, hn, c.L.wrap_eq hlt]
    cases bk with
    | gc =>
      show (if b.length ≤ b.length then _ else _) = _
      rw [if_pos le_rfl, prefix_ofList]
    | mmap =>
      show (if b.length ≤ ((Backend.mmap.handle i b).block w2).size then Except.ok (some (((Backend.mmap.handle i b).block w2).prefix b.length)) else _) = _
      rw [hblk]
      show (if b.length ≤ b.length then _ else _) = _
      rw [if_pos le_rfl, prefix_ofList]
  have hread : (w2.write j b).read path' = w.read path := (c3 b).trans hr.symm
  obtain ⟨t', l1, l2⟩ := Idx.load_same (bk' := bk') (u' := t) hl hread
  have hsave : t.save bk' w path' = .ok (.nil, t', w2.write j b) := by
    unfold Idx.save
    rw [if_neg (by simp [h8]), c1]
    simp only [hsb, bind, Except.bind]
    rw [l1]
  obtain ⟨e1, e2, e3⟩ := (Elsewhere.tail (.refl w) hp (Idx.save_moment hsave)).same ht h1
  refine ⟨t', _, hsave, hread, ?_, e1, a2, l2⟩
  rw [hr]
  simp [World.read, e2, e3, h2]

/-- What may happen between a file and a copy of a copy ... of it: some index loads the last copy and saves it under another name, with either
back end; or other indexes are saved elsewhere. -/
inductive Generations (c : Cfg) : World → String → World → String → Prop
  | refl (w p) : Generations c w p w p
  | copy {w w1 w2 : World} {p p1 p2 : String} {bk bk' : Backend} {u t t' : Idx c} : Generations c w p w1 p1 → u.load bk w1 p1 = .ok (.nil, t) → p2 ≠ p1 →
      t.save bk' w1 p2 = .ok (.nil, t', w2) → Generations c w p w2 p2
  | other {w w1 w2 : World} {p p1 : String} : Generations c w p w1 p1 → Elsewhere p1 w1 w2 → Generations c w p w2 p1

/-- `Save` that succeeds was able to create the file. -/
theorem Idx.save_creatable {bk : Backend} {w w' : World} {s s' : Idx c} {path : String} (h : s.save bk w path = .ok (.nil, s', w')) :
    w.creatable path = true := by
  by_contra hn
  unfold Idx.save at h
  rw [World.create_creatable.1 (by simpa using hn)] at h
  split at h <;> cases h

theorem World.read_dir {w : World} {path : String} {bytes : List Byte} (h : w.read path = some bytes) : ∃ i, w.dir path = some i := by
  obtain ⟨i, hi, -⟩ := Option.map_eq_some_iff.1 h
  exact ⟨i, hi⟩

/-- **C127**, any number of generations: the last copy holds the bytes of the first file, and whichever index loads it, with either back end,
answers everything as an index that loaded the first file. -/
theorem C127_generations {w w' : World} {p p' : String} (ht : w.Tidy) {bytes : List Byte} (hr : w.read p = some bytes) (hlt : bytes.length < c.L.range)
    (h : Generations c w p w' p') :
    w'.Tidy ∧ w'.read p' = some bytes ∧
    ∀ {bk bk' : Backend} {u u' t : Idx c}, u.load bk w p = .ok (.nil, t) → ∃ t', u'.load bk' w' p' = .ok (.nil, t') ∧ Alike w t w' t' := by
  have key : w'.Tidy ∧ w'.read p' = some bytes := by
    induction h with
    | refl => exact ⟨ht, hr⟩
    | copy _ hl hp hs ih =>
      obtain ⟨t1, r1⟩ := ih hr
      obtain ⟨t', w2', s1, s2, -, s3, -, -⟩ := C127_copy hl t1 (fun b hb => by rw [r1] at hb; cases hb; exact hlt) hp (Idx.save_creatable hs)
      rw [hs] at s1
      cases s1
      exact ⟨s3, s2.trans r1⟩
    | other _ he ih =>
      obtain ⟨t1, r1⟩ := ih hr
      obtain ⟨i, hi⟩ := World.read_dir r1
      obtain ⟨e1, e2, e3⟩ := he.same t1 hi
      refine ⟨e1, ?_⟩
      rw [← r1]
      simp [World.read, e2, e3, hi]
  exact ⟨key.1, key.2, fun hl => Idx.load_same hl (key.2.trans hr.symm)⟩

/-- **C127** for an index that was built and saved: the last copy is the file of this index, so everything that is known about loading the file of
a built index (`C16_sound_loaded`, `C27_save_load_partial`, `C28_exhaustive_partial`, ...) holds for it. -/
theorem C127_built {numCPU : Nat} {pol : BuildPolicy} {adds : List (Nat × List c.N.V)} {trees workers : Int} {s s' : Idx c}
    (h : Session c numCPU pol adds trees workers s s') {w w' : World} {p p' : String} (ht : w.Tidy) (hf : FileOf s' w p)
    (hg : Generations c w p w' p') : FileOf s' w' p' := by
  obtain ⟨N0, B, _⟩ := h.built
  refine h.fileOf.2 (C127_generations (c := c) ht (h.fileOf.1 hf) ?_ hg).2.1
  show (readBytes _ 0 _).length < _
  rw [readBytes_length]
  exact B.size_lt

/-- The file that no index ever wrote (C124), copied twice: the hypotheses of C127 hold. -/
example : ∃ (t t' : Idx (angular32 4 2)) (w' : World), (Idx.new (angular32 4 2) (Kiss32.new 0) 0).load .mmap (oneFile "x" tangledFile) "x" = .ok (.nil, t) ∧
    (oneFile "x" tangledFile).Tidy ∧ tangledFile.length < (angular32 4 2).L.range ∧
    Generations (angular32 4 2) (oneFile "x" tangledFile) "x" w' "z" ∧ w'.read "z" = some tangledFile ∧
    (Idx.new (angular32 4 2) (Kiss32.new 0) 0).load .gc w' "z" = .ok (.nil, t') ∧
    Alike (oneFile "x" tangledFile) t w' t' := by
  obtain ⟨t, h1, h2, h3, h4⟩ := tangled_loads
  have hlt : tangledFile.length < (angular32 4 2).L.range := by decide +kernel
  have hr := oneFile_read "x" tangledFile
  obtain ⟨t1, w1, s1, s2, -, s3, s4, -⟩ := C127_copy (bk' := .mmap) h1 (oneFile_tidy _ _) (fun b hb => by rw [hr] at hb; cases hb; exact hlt)
    (path' := "y") (by decide) rfl
  have g1 : Generations (angular32 4 2) (oneFile "x" tangledFile) "x" w1 "y" := .copy (.refl _ _) h1 (by decide) s1
  obtain ⟨-, r1, l1⟩ := C127_generations (oneFile_tidy _ _) hr hlt g1
  obtain ⟨t2, l2, -⟩ := l1 (bk' := .mmap) (u' := t1) h1
  obtain ⟨t3, w3, v1, v2, -, v3, v4, -⟩ := C127_copy (bk' := .mmap) l2 s3 (fun b hb => by rw [r1] at hb; cases hb; exact hlt)
    (path' := "z") (by decide) (by rw [s4]; rfl)
  have g2 : Generations (angular32 4 2) (oneFile "x" tangledFile) "x" w3 "z" := .copy g1 l2 (by decide) v1
  obtain ⟨-, r2, l3⟩ := C127_generations (oneFile_tidy _ _) hr hlt g2
  obtain ⟨t4, l4, l5⟩ := l3 (bk' := .gc) (u' := Idx.new (angular32 4 2) (Kiss32.new 0) 0) h1
  exact ⟨t, t4, w3, h1, oneFile_tidy _ _, hlt, g2, r2, l4, l5⟩

end Annoy
