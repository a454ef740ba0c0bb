import Verif.Props.SaveLoadWitness
/-!
# Files: rejection, crashes, own file, back ends, arbitrary content (C30, C32, C33, C34, C57, C60)
-/
namespace Annoy

section
variable {c : Cfg}

/-! ### C30 -/

/-- An empty index: nothing in it, nothing behind it. -/
structure Idx.Empty (t : Idx c) : Prop where
  nItems : t.nItems = 0
  nNodes : t.nNodes = 0
  roots : t.roots = []
  loaded : t.loaded = false
  memory : t.indexMemory = none ∧ t.alloc = Alloc.empty
  getItem : ∀ w i, c.L.nodeSize ≠ 0 → t.getItem w i = .error .oob

theorem Idx.close_empty (t : Idx c) : t.close.Empty := by
  refine ⟨rfl, rfl, rfl, rfl, ⟨rfl, rfl⟩, fun w i h => ?_⟩
  unfold Idx.getItem getNode
  rw [if_neg]
  · rfl
  · show ¬ (_ ≤ 0)
    omega

/-- **C30**: a file that does not exist, and a file whose size is no multiple of the node size, make `Load` return an error and leave an
empty index, whatever was in the index before; and whenever `Load` returns an error the index is empty. -/
theorem C30_load_rejects (bk : Backend) (w : World) (u : Idx c) (path : String) :
    (w.read path = none → ∃ msg t, u.load bk w path = .ok (.err msg, t) ∧ t.Empty) ∧
    (∀ bytes, w.read path = some bytes → bytes.length % c.L.nodeSize ≠ 0 →
      ∃ msg t, u.load bk w path = .ok (.err msg, t) ∧ t.Empty) ∧
    ∀ msg t, u.load bk w path = .ok (.err msg, t) → t.Empty := by
  refine ⟨fun hr => ?_, fun bytes hr hm => ?_, fun msg t hl => ?_⟩
  · have hd : w.dir path = none := by
      cases hd : w.dir path with
      | none => rfl
      | some i => simp [World.read, hd] at hr
    refine ⟨"open", u.close, ?_, u.close_empty⟩
    unfold Idx.load openIndex
    rw [hd]
    rfl
  · obtain ⟨h, _, _, h3⟩ := Idx.load_read (bk := bk) hr (by rintro rfl; simp at hm) u
    rw [h3, if_pos hm]
    exact ⟨_, _, rfl, Idx.close_empty _⟩
  · unfold Idx.load at hl
    simp only [bind, Except.bind] at hl
    split at hl
    · cases hl
    · split at hl
      · cases hl; exact u.close_empty
      · split at hl
        · cases hl; exact Idx.close_empty _
        · split at hl
          · cases hl
          · split at hl
            · cases hl
            · split at hl <;> cases hl

/-- The hypotheses of C30: 3 bytes, nodes of 20 bytes. -/
example : (oneFile "x" [1, 2, 3]).read "x" = some [1, 2, 3] ∧ [1, 2, 3].length % (angular32 4 2).L.nodeSize ≠ 0 ∧
    (oneFile "x" [1, 2, 3]).read "y" = none := ⟨oneFile_read _ _, by decide, by simp [oneFile, World.read]⟩

/-! ### what a successful `Load` leaves behind -/

theorem scanRoots_isSome {m : Block} : ∀ (fuel i : Nat) (md : Option Nat) {rs : List Nat} {md' : Option Nat},
    Idx.scanRoots c m fuel i md = .ok (rs, md') → md'.isSome := by
  intro fuel
  induction fuel with
  | zero => intro i md rs md' h; cases h
  | succ fuel ih =>
    intro i md rs md' h
    unfold Idx.scanRoots at h
    simp only [bind, Except.bind] at h
    split at h
    · cases h
    · split at h
      · split at h
        · cases h
        · next x hx => cases h; exact ih _ _ hx
      · next hmd =>
        cases h
        cases md with
        | none => exact absurd (Or.inl rfl) hmd
        | some v => rfl

/-- What `Load` puts behind the index. -/
def Backend.handle (bk : Backend) (i : Nat) (bytes : List Byte) : Handle :=
  match bk with
  | .gc => .gc (Block.ofList bytes)
  | .mmap => .mmap i bytes.length

/-- `Load` in terms of the bytes of the file: everything but the handle is the same for both back ends. -/
theorem Idx.load_bytes {bk : Backend} {w : World} {path : String} {i : Nat} {bytes : List Byte} (hd : w.dir path = some i)
    (hb : w.content i = bytes) (h0 : bytes ≠ []) (u : Idx c) :
    (bk.handle i bytes).block w = Block.ofList bytes ∧
    u.load bk w path =
      if bytes.length % c.L.nodeSize ≠ 0 then .ok (.err "file size is not a multiple of node size", u.close.close)
      else (do
        let n := c.L.wrap bytes.length / c.L.nodeSize
        let (roots, md) ← scanRoots c (Block.ofList bytes) (n + 2) (if n = 0 then c.L.range - 1 else n - 1) none
        let roots ← dropDup c (Block.ofList bytes) roots
        let nItems := md.getD 0
        let k ← countNNS c (Block.ofList bytes) nItems n
        .ok (.nil, { u.close with
          indexMemory := some (bk.handle i bytes)
          nodes := .file (bk.handle i bytes)
          nNodes := n
          roots := roots
          built := true
          loaded := true
          nItems := nItems
          batchMaxNNS := k })) := by
  subst hb
  have hlen : (w.content i).length ≠ 0 := fun h => h0 (List.length_eq_zero_iff.1 h)
  have ho : openIndex bk w path = .ok (some (bk.handle i (w.content i))) := by
    unfold openIndex
    rw [hd]
    cases bk <;> simp [hlen, Backend.handle]
  have hblk : (bk.handle i (w.content i)).block w = Block.ofList (w.content i) := by
    cases bk with
    | gc => rfl
    | mmap =>
      show (⟨min _ _, _⟩ : Block) = _
      rw [min_self]
      rfl
  have hsize : (bk.handle i (w.content i)).size = (w.content i).length := by cases bk <;> rfl
  refine ⟨hblk, ?_⟩
  unfold Idx.load
  rw [ho]
  simp only [bind, Except.bind]
  rw [hsize, hblk]

/-- A successful `Load` in terms of the bytes of the file. -/
theorem Idx.load_ok {bk : Backend} {w : World} {path : String} {u t : Idx c} (hl : u.load bk w path = .ok (.nil, t)) :
    ∃ i bytes, w.dir path = some i ∧ w.content i = bytes ∧ bytes ≠ [] ∧ bytes.length % c.L.nodeSize = 0 ∧
      t.mem w = Block.ofList bytes ∧ t.nNodes = c.L.wrap bytes.length / c.L.nodeSize ∧ t.loaded = true ∧ t.built = true ∧
      (∃ roots, scanRoots c (Block.ofList bytes) (t.nNodes + 2) (if t.nNodes = 0 then c.L.range - 1 else t.nNodes - 1) none =
          .ok (roots, some t.nItems) ∧ dropDup c (Block.ofList bytes) roots = .ok t.roots) ∧
      countNNS c (Block.ofList bytes) t.nItems t.nNodes = .ok t.batchMaxNNS ∧
      t.nodes = .file (bk.handle i bytes) := by
  cases hd : w.dir path with
  | none =>
    unfold Idx.load openIndex at hl
    rw [hd] at hl
    cases hl
  | some i =>
    by_cases h0 : w.content i = []
    · unfold Idx.load openIndex at hl
      rw [hd] at hl
      cases bk <;> simp [h0, bind, Except.bind] at hl
    · obtain ⟨hblk, h1⟩ := Idx.load_bytes (bk := bk) hd rfl h0 u
      rw [h1] at hl
      split at hl
      · cases hl
      · next hm =>
        simp only [bind, Except.bind] at hl
        split at hl
        · cases hl
        · next x hx =>
          obtain ⟨roots, md⟩ := x
          obtain ⟨v, rfl⟩ := Option.isSome_iff_exists.1 (scanRoots_isSome _ _ _ hx)
          dsimp only at hl
          split at hl
          · cases hl
          · next r hr =>
            split at hl
            · cases hl
            · next k hk =>
              cases hl
              exact ⟨i, _, rfl, rfl, h0, by simpa using hm, hblk, rfl, rfl, rfl, ⟨roots, hx, hr⟩, hk, rfl⟩

/-! ### C60 -/

/-- Vector number `i` of a file: the components decoded from their bytes. -/
def fileVec (c : Cfg) (bytes : List Byte) (i : Nat) : List c.N.V :=
  (List.range c.L.f).map fun k => c.C.dec ((bytes.drop (i * c.L.nodeSize + c.L.offV + k * c.C.sz)).take c.C.sz)

theorem readBytes_ofList {bytes : List Byte} {x k : Nat} (h : x + k ≤ bytes.length) :
    readBytes (Block.ofList bytes).get x k = (bytes.drop x).take k := by
  apply List.ext_getElem
  · simp; omega
  · intro j h1 h2
    simp only [readBytes_getElem, List.getElem_take, List.getElem_drop]
    simp only [readBytes_length] at h1
    show bytes.getD (x + j) 0 = _
    rw [List.getD_eq_getElem?_getD, List.getElem?_eq_getElem (by omega)]
    rfl

/-- **C60**: for every file that `Load` accepts, whatever is in it, with either back end: `GetItem` of a node of the file decodes the bytes of
that node, and `GetItem` of a number beyond the file (as long as its address does not wrap around) reads outside. -/
theorem C60_getItem_file (hc : c.WF) {bk : Backend} {w : World} {path : String} {u t : Idx c}
    (hl : u.load bk w path = .ok (.nil, t)) :
    ∃ bytes, w.read path = some bytes ∧
      (bytes.length < c.L.range → t.nNodes * c.L.nodeSize = bytes.length) ∧
      (∀ i, i < t.nNodes → t.getItem w i = .ok (fileVec c bytes i)) ∧
      ∀ i, bytes.length ≤ i * c.L.nodeSize → i * c.L.nodeSize < c.L.range → t.getItem w i = .error .oob := by
  obtain ⟨i, bytes, h1, h2, h3, h4, h5, h6, _⟩ := Idx.load_ok hl
  have hL := hc.layout
  have hp := hL.nodeSize_pos
  have hsz := hL.size_eq
  refine ⟨bytes, by simp [World.read, h1, h2], fun hlt => ?_, fun k hk => ?_, fun k h7 h8 => ?_⟩
  · rw [h6, c.L.wrap_eq hlt]
    exact Nat.div_mul_cancel (Nat.dvd_of_mod_eq_zero h4)
  · have h9 : (k + 1) * c.L.nodeSize ≤ c.L.wrap bytes.length := by
      rw [h6] at hk
      exact le_trans (Nat.mul_le_mul_right _ hk) (Nat.div_mul_le_self _ _)
    have h10 : c.L.wrap bytes.length ≤ bytes.length := Nat.mod_le _ _
    have h11 : c.L.wrap bytes.length < c.L.range := Nat.mod_lt _ (by unfold Layout.range; positivity)
    rw [Nat.add_mul, Nat.one_mul] at h9
    have ha : c.L.addr k = k * c.L.nodeSize := c.L.addr_eq (by omega)
    unfold Idx.getItem
    rw [h5, Idx.getNode_eq (by rw [ha]; show _ ≤ bytes.length; omega), ha]
    simp only [bind, Except.bind]
    congr 1
    apply List.map_congr_left
    intro j hj
    have hj := List.mem_range.1 hj
    rw [readBytes_ofList]
    have := Nat.mul_le_mul_right c.C.sz (show j + 1 ≤ c.L.f from hj)
    rw [Nat.add_mul] at this
    omega
  · have ha : c.L.addr k = k * c.L.nodeSize := c.L.addr_eq h8
    unfold Idx.getItem getNode
    rw [h5, if_neg]
    · rfl
    · rw [ha]
      show ¬ (_ ≤ bytes.length)
      omega

/-! ### C34 -/

/-- Everything that can be asked of an index, asked of `t` and of `t'`. -/
structure Alike (w : World) (t : Idx c) (w' : World) (t' : Idx c) : Prop where
  nItems : t'.nItems = t.nItems
  context : t'.createContext = t.createContext
  getItem : ∀ i, t'.getItem w' i = t.getItem w i
  getDistance : ∀ i j, t'.getDistance w' i j = t.getDistance w i j
  byVector : ∀ fuel query k b ctx, t'.getNnsByVector fuel w' query k b ctx = t.getNnsByVector fuel w query k b ctx
  byItem : ∀ fuel i k b ctx, t'.getNnsByItem fuel w' i k b ctx = t.getNnsByItem fuel w i k b ctx

theorem Alike.of_fields {w w' : World} {t t' : Idx c} (hm : t'.mem w' = t.mem w) (hi : t'.nItems = t.nItems)
    (hr : t'.roots = t.roots) (hn : t'.nNodes = t.nNodes) (hb : t'.batchMaxNNS = t.batchMaxNNS) : Alike w t w' t' := by
  have hv : ∀ fuel query k b ctx, t'.getNnsByVector fuel w' query k b ctx = t.getNnsByVector fuel w query k b ctx := by
    intro fuel query k b ctx
    unfold Idx.getNnsByVector
    rw [hm, hi, hr]
  refine ⟨hi, ?_, fun i => ?_, fun i j => ?_, hv, fun fuel i k b ctx => ?_⟩
  · unfold Idx.createContext
    rw [hb, hn]
  · unfold Idx.getItem
    rw [hm]
  · unfold Idx.getDistance
    rw [hm]
  · unfold Idx.getNnsByItem
    rw [hm]
    simp only [hv]

/-- **C34**, for files that are not empty: both back ends fail in the same way, reject the file with the same error and leave an empty index,
or give indexes that answer every question alike.  The index of the GC back end keeps its answers whatever happens to the file later.
(Missing: `C34_refuted`, `C34_refuted_later`.) -/
theorem C34_backends_partial {w : World} {path : String} (h0 : w.read path ≠ some []) (u : Idx c) :
    ((∃ e, u.load .mmap w path = .error e ∧ u.load .gc w path = .error e) ∨
      (∃ msg t, u.load .mmap w path = .ok (.err msg, t) ∧ u.load .gc w path = .ok (.err msg, t) ∧ t.Empty) ∨
      ∃ t t', u.load .mmap w path = .ok (.nil, t) ∧ u.load .gc w path = .ok (.nil, t') ∧ Alike w t w t') ∧
    ∀ t, u.load .gc w path = .ok (.nil, t) → ∀ w', Alike w t w' t := by
  constructor
  · cases hd : w.dir path with
    | none =>
      right; left
      refine ⟨"open", u.close, ?_, ?_, u.close_empty⟩ <;> (unfold Idx.load openIndex; rw [hd]; rfl)
    | some i =>
      have h0 : w.content i ≠ [] := by
        intro h
        apply h0
        simp [World.read, hd, h]
      obtain ⟨b1, h1⟩ := Idx.load_bytes (bk := .mmap) hd rfl h0 u
      obtain ⟨b2, h2⟩ := Idx.load_bytes (bk := .gc) hd rfl h0 u
      rw [h1, h2]
      split
      · exact Or.inr (Or.inl ⟨_, _, rfl, rfl, Idx.close_empty _⟩)
      · simp only [bind, Except.bind]
        split
        · exact Or.inl ⟨_, rfl, rfl⟩
        · split
          · exact Or.inl ⟨_, rfl, rfl⟩
          · split
            · exact Or.inl ⟨_, rfl, rfl⟩
            · exact Or.inr (Or.inr ⟨_, _, rfl, rfl, Alike.of_fields (b2.trans b1.symm) rfl rfl rfl rfl⟩)
  · intro t hl w'
    obtain ⟨i, bytes, _, _, _, _, _, _, _, _, _, _, h⟩ := Idx.load_ok hl
    refine Alike.of_fields ?_ rfl rfl rfl rfl
    unfold Idx.mem
    rw [h]
    rfl

/-- **C34 as stated is false** for an empty file: one back end reports an error, the other panics. -/
theorem C34_refuted {w : World} {path : String} (h : w.read path = some []) (u : Idx c) :
    (∃ msg, u.load .mmap w path = .ok (.err msg, u.close)) ∧ ∃ msg, u.load .gc w path = .error (.panic msg) := by
  obtain ⟨i, hi, hb⟩ := Option.map_eq_some_iff.1 h
  constructor
  · refine ⟨"open", ?_⟩
    unfold Idx.load openIndex
    simp [hi, hb, bind, Except.bind]
  · refine ⟨"index out of range [0] with length 0", ?_⟩
    unfold Idx.load openIndex
    simp [hi, hb, bind, Except.bind]

/-- **C34 as stated is false** once somebody truncates the file (as `Save` does): every access of the mapped index faults, while the copy
of the other back end is as before (`C34_backends_partial`). -/
theorem C34_refuted_later (hc : c.WF) {w : World} {path : String} {u t : Idx c} (hl : u.load .mmap w path = .ok (.nil, t)) {w' : World}
    (hw : ∀ i, w.dir path = some i → w'.content i = []) (k : Nat) : t.getItem w' k = .error .oob := by
  obtain ⟨i, bytes, h1, _, _, _, _, _, _, _, _, _, h⟩ := Idx.load_ok hl
  have hp := hc.layout.nodeSize_pos
  unfold Idx.getItem getNode Idx.mem
  rw [h, if_neg]
  · rfl
  · show ¬ (_ ≤ min bytes.length (w'.content i).length)
    rw [hw i h1]
    simp
    omega

/-! ### C33 -/

theorem prefix_ofList (bytes : List Byte) : (Block.ofList bytes).prefix bytes.length = bytes := by
  show readBytes (Block.ofList bytes).get 0 bytes.length = bytes
  rw [readBytes_ofList (by omega)]
  simp

/-- **C33** for the GC back end: `Save` of a loaded index onto its own file (or any other) writes the bytes it was loaded from, whatever
happened to the file in between, and the index answers everything as before.  (For `mmap` see `C33_refuted`.) -/
theorem C33_own_file_partial {w : World} {path : String} {u t : Idx c} (hl : u.load .gc w path = .ok (.nil, t)) {bytes : List Byte}
    (hr : w.read path = some bytes) (hlt : bytes.length < c.L.range) {w1 : World} {path' : String} (hcr : w1.creatable path' = true) :
    ∃ t' w', t.save .gc w1 path' = .ok (.nil, t', w') ∧ w'.read path' = some bytes ∧ Alike w t w' t' := by
  obtain ⟨i, b, h1, h2, h3, h4, h5, h6, h7, h8, ⟨roots, h9, h10⟩, h11, h⟩ := Idx.load_ok hl
  obtain rfl : b = bytes := by simpa [World.read, h1, h2] using hr
  obtain ⟨j, w2, c1, _, c3⟩ := World.create_write hcr
  have hn : t.nNodes * c.L.nodeSize = b.length := by
    rw [h6, c.L.wrap_eq hlt]
    exact Nat.div_mul_cancel (Nat.dvd_of_mod_eq_zero h4)
  have hsb : t.saveBytes w2 = .ok (some b) := by
    unfold Idx.saveBytes
    rw [h, hn, c.L.wrap_eq hlt]
    show (if b.length ≤ b.length then _ else _) = _
    rw [if_pos le_rfl, prefix_ofList]
  obtain ⟨k, k1, k2⟩ := Option.map_eq_some_iff.1 (c3 b)
  obtain ⟨b1, l1⟩ := Idx.load_bytes (bk := .gc) k1 k2 h3 t
  rw [if_neg (by simpa using h4)] at l1
  simp only [← h6, h9, bind, Except.bind, h10, Option.getD_some, h11] at l1
  refine ⟨{ t.close with
          indexMemory := some (Backend.handle .gc k b)
          nodes := .file (Backend.handle .gc k b)
          nNodes := t.nNodes
          roots := t.roots
          built := true
          loaded := true
          nItems := t.nItems
          batchMaxNNS := t.batchMaxNNS }, w2.write j b, ?_, c3 b, ?_⟩
  · unfold Idx.save
    rw [if_neg (by simp [h8]), c1]
    simp only [hsb, bind, Except.bind]
    rw [l1]
  · exact Alike.of_fields (b1.trans h5.symm) rfl rfl rfl rfl

/-- **C33 as stated is false** for every index loaded with `mmap`: `Save` onto its own file returns an error, the file is then empty, and so
is the mapping: every access faults. -/
theorem C33_refuted (hc : c.WF) {w : World} {path : String} {u t : Idx c} (hl : u.load .mmap w path = .ok (.nil, t)) {bytes : List Byte}
    (hr : w.read path = some bytes) (hlt : bytes.length < c.L.range) (hcr : w.creatable path = true) :
    ∃ w', t.save .mmap w path = .ok (.err "write", t, w') ∧ w'.read path = some [] ∧ ∀ k, t.getItem w' k = .error .oob := by
  obtain ⟨i, b, h1, h2, h3, h4, h5, h6, h7, h8, _, _, h⟩ := Idx.load_ok hl
  obtain rfl : b = bytes := by simpa [World.read, h1, h2] using hr
  have hn : t.nNodes * c.L.nodeSize = b.length := by
    rw [h6, c.L.wrap_eq hlt]
    exact Nat.div_mul_cancel (Nat.dvd_of_mod_eq_zero h4)
  have hpos : 0 < b.length := List.length_pos_iff.2 h3
  have hcw : w.create path = some (i, { w with content := fun j => if j = i then [] else w.content j }) := by
    unfold World.create
    rw [if_pos hcr, h1]
  refine ⟨_, ?_, ?_, fun k => C34_refuted_later hc hl (w' := { w with content := fun j => if j = i then [] else w.content j }) ?_ k⟩
  · unfold Idx.save
    rw [if_neg (by simp [h8]), hcw]
    have hsb : t.saveBytes { w with content := fun j => if j = i then [] else w.content j } = .ok none := by
      unfold Idx.saveBytes
      rw [h, hn, c.L.wrap_eq hlt]
      simp only [Backend.handle, Handle.block]
      rw [if_neg]
      simp
      omega
    simp only [hsb, bind, Except.bind]
  · simp [World.read, h1]
  · intro j hj
    rw [h1] at hj
    cases hj
    simp

/-! ### C32 -/

/-- **C32 as stated is false** for every `Save` onto an existing file that is not empty: there is a moment at which the file is neither what
it was nor what it will be, but empty. -/
theorem C32_refuted {s : Idx c} {w : World} {path : String} {old new : List Byte} (hr : w.read path = some old) (ho : old ≠ [])
    (hcr : w.creatable path = true) (hn : new ≠ []) :
    ∃ w', s.SaveMoment w path w' ∧ w'.read path ≠ w.read path ∧ w'.read path ≠ some new := by
  obtain ⟨i, w1, c1, c2, _⟩ := World.create_write hcr
  refine ⟨w1, .failed i w1 c1, ?_, ?_⟩
  · rw [c2, hr]; simpa using fun h => ho h
  · rw [c2]; simpa using fun h => hn h

/-- The hypotheses of C32. -/
example : (oneFile "x" [1]).read "x" = some [1] ∧ ([1] : List Byte) ≠ [] ∧ (oneFile "x" [1]).creatable "x" = true :=
  ⟨oneFile_read _ _, by simp, rfl⟩

/-- What is left of **C32**: at any moment the file is as it was, or holds the first bytes of what `Save` writes; and every other file is as
it was, unless it is the same file under another name.  (Missing: `C32_refuted`.) -/
theorem C32_prefix_partial {s : Idx c} {w w' : World} {path : String} (h : s.SaveMoment w path w') :
    (w'.read path = w.read path ∨ w'.read path = some [] ∨
      ∃ w1 bytes k, s.saveBytes w1 = .ok (some bytes) ∧ w'.read path = some (bytes.take k)) ∧
    ∀ p, p ≠ path → w.dir p ≠ w.dir path → (∀ i, w.dir p = some i → i < w.next) → w'.read p = w.read p := by
  have hother : ∀ {inode w1}, w.create path = some (inode, w1) → ∀ bytes,
      ∀ p, p ≠ path → w.dir p ≠ w.dir path → (∀ i, w.dir p = some i → i < w.next) →
        (w1.write inode bytes).read p = w.read p ∧ w1.read p = w.read p := by
    intro inode w1 hc bytes p hp hd hlt
    unfold World.create at hc
    split at hc
    · cases hi : w.dir path with
      | some i =>
        rw [hi] at hc
        cases hc
        cases hj : w.dir p with
        | none => simp [World.read, World.write, hj]
        | some j =>
          have : j ≠ inode := by rintro rfl; exact hd (by rw [hi, hj])
          simp [World.read, World.write, hj, this]
      | none =>
        rw [hi] at hc
        cases hc
        cases hj : w.dir p with
        | none => simp [World.read, World.write, hj, hp]
        | some j =>
          have : j ≠ w.next := by have := hlt j hj; omega
          simp [World.read, World.write, hj, this, hp]
    · cases hc
  cases h with
  | before => exact ⟨Or.inl rfl, fun _ _ _ _ => rfl⟩
  | writing i w1 bytes k hc hb =>
    refine ⟨Or.inr (Or.inr ⟨w1, bytes, k, hb, ?_⟩), fun p h1 h2 h3 => (hother hc _ p h1 h2 h3).1⟩
    have hcr : w.creatable path = true := by
      by_contra hn
      unfold World.create at hc
      rw [if_neg hn] at hc
      cases hc
    obtain ⟨i', w1', c1, _, c3⟩ := World.create_write hcr
    rw [hc] at c1
    cases c1
    exact c3 _
  | failed i _ hc =>
    refine ⟨Or.inr (Or.inl ?_), fun p h1 h2 h3 => (hother hc [] p h1 h2 h3).2⟩
    have hcr : w.creatable path = true := by
      by_contra hn
      unfold World.create at hc
      rw [if_neg hn] at hc
      cases hc
    obtain ⟨i', w1', c1, c2, _⟩ := World.create_write hcr
    rw [hc] at c1
    cases c1
    exact c2

end
end Annoy
