import Verif.Model.IO
import Verif.Proof.SearchSession
/-!
From a built index to its file and back.
-/
namespace Annoy

theorem Block.ofList_prefix (b : Block) (k : Nat) (hz : ∀ x, k ≤ x → b.get x = 0) :
    Block.ofList (b.prefix k) = ⟨k, b.get⟩ := by
  unfold Block.ofList Block.prefix
  congr 1
  · simp
  · apply Bytes.ext'
    intro x
    show ((readBytes b.get 0 k).getD x 0 : Byte) = b.get x
    by_cases hx : x < k
    · rw [List.getD_eq_getElem?_getD, List.getElem?_eq_getElem (by simpa using hx)]
      simp [readBytes_getElem]
    · rw [List.getD_eq_getElem?_getD, List.getElem?_eq_none (by simpa using hx), hz x (by omega)]
      rfl

namespace Idx
variable {c : Cfg}

/-- Node `i` of a block of `N` nodes. -/
theorem getNode_block {N i : Nat} {b : Bytes} (hfit : N * c.L.nodeSize < c.L.range) (hi : i < N) :
    Annoy.getNode c.L ⟨N * c.L.nodeSize, b⟩ i = .ok (i * c.L.nodeSize) := by
  have hle : (i + 1) * c.L.nodeSize ≤ N * c.L.nodeSize := Nat.mul_le_mul_right _ hi
  rw [Nat.add_mul] at hle
  have ha : c.L.addr i = i * c.L.nodeSize := c.L.addr_eq (by omega)
  rw [Idx.getNode_eq (by rw [ha]; show _ ≤ N * c.L.nodeSize; omega), ha]

/-- The scan of `Load` stops at the first node with a different count. -/
theorem scanRoots_run {N v : Nat} {b : Bytes} (hfit : N * c.L.nodeSize < c.L.range) {j : Nat}
    (hj : ndAt c.L b j ≠ v) : ∀ (d fuel : Nat) (md : Option Nat), j + d < N → d < fuel →
    (∀ i, j < i → i ≤ j + d → ndAt c.L b i = v) → (md = none ∧ 0 < d ∨ md = some v) →
    scanRoots c ⟨N * c.L.nodeSize, b⟩ fuel (j + d) md = .ok ((List.range' (j + 1) d).reverse, some v) := by
  intro d
  induction d with
  | zero =>
    intro fuel md hN hf hv hmd
    obtain ⟨fuel, rfl⟩ : ∃ f, fuel = f + 1 := ⟨fuel - 1, by omega⟩
    have hmd : md = some v := by simpa using hmd
    subst hmd
    unfold scanRoots
    rw [getNode_block hfit (by omega)]
    simp only [bind, Except.bind]
    rw [if_neg]
    · simp
    · rintro (h | h)
      · cases h
      · injection h with h
        exact hj h.symm
  | succ d ih =>
    intro fuel md hN hf hv hmd
    obtain ⟨fuel, rfl⟩ : ∃ f, fuel = f + 1 := ⟨fuel - 1, by omega⟩
    unfold scanRoots
    rw [getNode_block hfit (by omega)]
    simp only [bind, Except.bind]
    have hnd : Node.nDesc c.L b ((j + (d + 1)) * c.L.nodeSize) = v := hv (j + (d + 1)) (by omega) (by omega)
    rw [hnd, if_pos (by rcases hmd with h | h; exact Or.inl h.1; exact Or.inr h), if_neg (by omega)]
    have := ih fuel (some v) (by omega) (by omega) (fun i h1 h2 => hv i h1 (by omega)) (Or.inr rfl)
    rw [show j + (d + 1) - 1 = j + d by omega, this]
    simp only
    rw [List.range'_concat]
    simp [Nat.add_comm, Nat.add_left_comm]

/-- If all nodes have the same count, the scan runs below node 0 and out of the file. -/
theorem scanRoots_fault (hL : c.L.Ok c.C.sz) {N v : Nat} {b : Bytes} (hfit : N * c.L.nodeSize < c.L.range)
    (hv : ∀ i, i < N → ndAt c.L b i = v) : ∀ (i fuel : Nat) (md : Option Nat), i < N → i + 1 < fuel → (md = none ∨ md = some v) →
    scanRoots c ⟨N * c.L.nodeSize, b⟩ fuel i md = .error .oob := by
  have hp := hL.nodeSize_pos
  have hsz := hL.size_lt
  intro i
  induction i with
  | zero =>
    intro fuel md hN hf hmd
    obtain ⟨fuel, rfl⟩ : ∃ f, fuel = f + 2 := ⟨fuel - 2, by omega⟩
    unfold scanRoots
    rw [getNode_block hfit hN]
    simp only [bind, Except.bind]
    have hnd : Node.nDesc c.L b (0 * c.L.nodeSize) = v := hv 0 hN
    rw [hnd, if_pos hmd, if_pos trivial]
    have : Annoy.getNode c.L ⟨N * c.L.nodeSize, b⟩ (c.L.range - 1) = .error .oob := by
      unfold Annoy.getNode
      rw [if_neg]
      show ¬ (c.L.addr (c.L.range - 1) + c.L.nodeSize ≤ N * c.L.nodeSize)
      have : c.L.addr (c.L.range - 1) = c.L.range - c.L.nodeSize := by
        unfold Layout.addr Layout.wrap
        have e : c.L.nodeSize * (c.L.range - 1) = (c.L.nodeSize - 1) * c.L.range + (c.L.range - c.L.nodeSize) := by
          obtain ⟨k, hk⟩ : ∃ k, c.L.range = c.L.nodeSize + k := ⟨c.L.range - c.L.nodeSize, by omega⟩
          obtain ⟨q, hq⟩ : ∃ q, c.L.nodeSize = q + 1 := ⟨c.L.nodeSize - 1, by omega⟩
          rw [hk, hq]
          simp only [Nat.add_sub_cancel, Nat.add_sub_cancel_left]
          rw [show q + 1 + k - 1 = q + k by omega]
          ring
        rw [Nat.mul_comm, e, Nat.mul_add_mod_self_right]
        exact Nat.mod_eq_of_lt (by omega)
      omega
    unfold scanRoots
    rw [this]
    rfl
  | succ i ih =>
    intro fuel md hN hf hmd
    obtain ⟨fuel, rfl⟩ : ∃ f, fuel = f + 1 := ⟨fuel - 1, by omega⟩
    unfold scanRoots
    rw [getNode_block hfit hN]
    simp only [bind, Except.bind]
    have hnd : Node.nDesc c.L b ((i + 1) * c.L.nodeSize) = v := hv (i + 1) hN
    rw [hnd, if_pos hmd, if_neg (by omega), show i + 1 - 1 = i by omega,
      ih fuel (some v) (by omega) (by omega) (Or.inr rfl)]

/-! ### the file of a built index -/

section
variable {s : Idx c} {m : Nat → Option (List c.N.V)} {n N0 : Nat}

theorem Built.size_lt (B : s.Built m n N0) : s.nNodes * c.L.nodeSize < c.L.range := by
  have h1 := B.memOK.fits
  have h2 : s.nNodes * c.L.nodeSize ≤ s.nodesSize * c.L.nodeSize := Nat.mul_le_mul_right _ B.le_size
  omega

/-- What `Save` writes: all nodes. -/
theorem Built.saveBytes (hc : c.WF) (B : s.Built m n N0) (w : World) :
    s.saveBytes w = .ok (some (s.alloc.block.prefix (s.nNodes * c.L.nodeSize))) := by
  have hlt := B.size_lt
  have hp := hc.layout.nodeSize_pos
  unfold Idx.saveBytes
  rw [c.L.wrap_eq hlt]
  by_cases h0 : 0 < s.nNodes
  · have := B.memOK.nodes (by have := B.le_size; omega)
    rw [this]
    dsimp only
    rw [if_pos]
    have h2 : s.nNodes * c.L.nodeSize ≤ s.nodesSize * c.L.nodeSize := Nat.mul_le_mul_right _ B.le_size
    have := B.memOK.size
    omega
  · have e : s.nNodes = 0 := by omega
    rw [e, Nat.zero_mul]
    have e2 : s.alloc.block.prefix 0 = [] := rfl
    rw [e2]
    cases hn : s.nodes with
    | null => rfl
    | build => simp [e2]
    | file h => cases h <;> simp [Block.prefix, readBytes]

/-- What is found when a file that is not empty is opened, with either back end. -/
theorem _root_.Annoy.openIndex_read {bk : Backend} {w : World} {path : String} {bytes : List Byte} (hr : w.read path = some bytes)
    (h0 : bytes ≠ []) : ∃ h, openIndex bk w path = .ok (some h) ∧ h.size = bytes.length ∧
      h.block w = Block.ofList bytes := by
  unfold World.read at hr
  obtain ⟨i, hi, rfl⟩ := Option.map_eq_some_iff.1 hr
  have hlen : (w.content i).length ≠ 0 := fun h => h0 (List.length_eq_zero_iff.1 h)
  unfold openIndex
  rw [hi]
  cases bk with
  | mmap =>
    refine ⟨.mmap i (w.content i).length, by simp [hlen], rfl, ?_⟩
    show (⟨min _ _, _⟩ : Block) = _
    rw [min_self]
    rfl
  | gc => exact ⟨.gc (Block.ofList (w.content i)), by simp [hlen], rfl, rfl⟩

/-- `Load` of a file that is not empty. -/
theorem load_read {bk : Backend} {w : World} {path : String} {bytes : List Byte} (hr : w.read path = some bytes)
    (h0 : bytes ≠ []) (t : Idx c) : ∃ h : Handle, h.size = bytes.length ∧ h.block w = Block.ofList bytes ∧
    t.load bk w path =
      if bytes.length % c.L.nodeSize ≠ 0 then .ok (.err "file size is not a multiple of node size", t.close.close)
      else (do
        let n := c.L.wrap bytes.length / c.L.nodeSize
        let (roots, md) ← scanRoots c (Block.ofList bytes) (n + 2) (if n = 0 then c.L.range - 1 else n - 1) none
        let roots ← dropDup c (Block.ofList bytes) roots
        let nItems := md.getD 0
        let k ← countNNS c (Block.ofList bytes) nItems n
        .ok (.nil, { t.close with
          indexMemory := some h
          nodes := .file h
          nNodes := n
          roots := roots
          built := true
          loaded := true
          nItems := nItems
          batchMaxNNS := k })) := by
  obtain ⟨h, h1, h2, h3⟩ := openIndex_read (bk := bk) hr h0
  refine ⟨h, h2, h3, ?_⟩
  unfold Idx.load
  rw [h1]
  simp only [bind, Except.bind]
  rw [h2, h3]

theorem Built.copy_count (hc : c.WF) (B : s.Built m n N0) {k : Nat} (hlt : k < s.roots.length) :
    ndAt c.L s.alloc.data (N0 + k) = n % 2 ^ (8 * c.L.f) := by
  have := hc.layout.three_le
  rw [← (B.counted _ (List.getElem_mem hlt)).cut]
  exact Node.nDesc_cut rfl fun j hj => B.copies k hlt j (by omega)

theorem Built.copy_nd (hc : c.WF) (B : s.Built m n N0) (hk : c.L.CountKept n) {k : Nat} (hlt : k < s.roots.length) :
    ndAt c.L s.alloc.data (N0 + k) = n := by
  rw [B.copy_count hc hlt]
  exact Nat.mod_eq_of_lt hk

theorem Built.file_block (B : s.Built m n N0) :
    Block.ofList (s.alloc.block.prefix (s.nNodes * c.L.nodeSize)) = ⟨s.nNodes * c.L.nodeSize, s.alloc.data⟩ :=
  Block.ofList_prefix _ _ B.zero

theorem countNNS_congr {m1 m2 : Block} {n N : Nat} (h : ∀ i, i < N → nnsOf c m1 n i = nnsOf c m2 n i) :
    countNNS c m1 n N = countNNS c m2 n N := by
  unfold countNNS
  have : ∀ l : List Nat, (∀ i ∈ l, i < N) → l.mapM (nnsOf c m1 n) = l.mapM (nnsOf c m2 n) := by
    intro l hl
    induction l with
    | nil => rfl
    | cons i l ih =>
      rw [List.mapM_cons, List.mapM_cons, h i (hl i (by simp)), ih fun x hx => hl x (by simp [hx])]
  rw [this _ fun i hi => List.mem_range.1 hi]

/-- What an index is like after loading the file of the built index `s`. -/
structure Reloaded (s : Idx c) (n N0 : Nat) (w : World) (t : Idx c) : Prop where
  mem : t.mem w = ⟨s.nNodes * c.L.nodeSize, s.alloc.data⟩
  loaded : t.loaded = true
  built : t.built = true
  nItems : t.nItems = n
  nNodes : t.nNodes = s.nNodes
  nns : t.batchMaxNNS = s.batchMaxNNS
  roots : ∃ j, n ≤ j + 1 ∧ j + 1 < N0 ∧ ndAt c.L s.alloc.data j ≠ n ∧
    (∀ i, j < i → i < s.nNodes → ndAt c.L s.alloc.data i = n) ∧
    t.roots = if childAt c.L s.alloc.data (j + 1) 0 = childAt c.L s.alloc.data (s.nNodes - 1) 0
      then (List.range' (j + 2) (s.nNodes - (j + 2))).reverse else (List.range' (j + 1) (s.nNodes - (j + 1))).reverse

theorem Reloaded.roots_or {w : World} {t : Idx c} (R : s.Reloaded n N0 w t) :
    ∃ j, n ≤ j + 1 ∧ j + 1 < N0 ∧ ndAt c.L s.alloc.data j ≠ n ∧
    (∀ i, j < i → i < s.nNodes → ndAt c.L s.alloc.data i = n) ∧
    (t.roots = (List.range' (j + 1) (s.nNodes - (j + 1))).reverse ∨
      t.roots = (List.range' (j + 2) (s.nNodes - (j + 2))).reverse ∧
        childAt c.L s.alloc.data (j + 1) 0 = childAt c.L s.alloc.data (s.nNodes - 1) 0) := by
  obtain ⟨j, h1, h2, h3, h4, h5⟩ := R.roots
  refine ⟨j, h1, h2, h3, h4, ?_⟩
  split at h5
  · next h => exact Or.inr ⟨h5, h⟩
  · exact Or.inl h5

/-- `Load` of the file of a built index with at least two item slots and one tree. -/
theorem Built.load (hc : c.WF) (B : s.Built m n N0) (hn : 2 ≤ n) (hr : s.roots ≠ []) (hk : c.L.CountKept n)
    {bk : Backend} {w : World} {path : String}
    (hread : w.read path = some (s.alloc.block.prefix (s.nNodes * c.L.nodeSize))) (t : Idx c) :
    ∃ t', t.load bk w path = .ok (.nil, t') ∧ s.Reloaded n N0 w t' := by
  have hL := hc.layout
  have hp := hL.nodeSize_pos
  have hfit := B.size_lt
  have hrl := List.length_pos_iff.2 hr
  have hN := B.nNodes
  have hlast := B.roots_lt _ (B.last hr)
  have hlen : (s.alloc.block.prefix (s.nNodes * c.L.nodeSize)).length = s.nNodes * c.L.nodeSize := by
    simp [Block.prefix]
  have hpos : 0 < s.nNodes * c.L.nodeSize := Nat.mul_pos (by omega) hp
  obtain ⟨h, h1, h2, h3⟩ := load_read (bk := bk) hread (by
    intro h0
    rw [h0] at hlen
    simp at hlen
    omega) t
  rw [h3, hlen, Nat.mul_mod_left, if_neg (by simp), c.L.wrap_eq hfit, Nat.mul_div_cancel _ hp, B.file_block]
  dsimp only
  rw [if_neg (by omega : ¬ s.nNodes = 0)]
  -- where the scan stops
  set j := Nat.findGreatest (fun i => ndAt c.L s.alloc.data i ≠ n) (s.nNodes - 1) with hj
  have htop : ndAt c.L s.alloc.data (n - 1) ≠ n := by
    obtain ⟨v, hv⟩ := Option.isSome_iff_exists.1 (B.top (by omega))
    have : ndAt c.L s.alloc.data (n - 1) = 1 := (B.items _ v hv).nDesc
    omega
  have hjP : ndAt c.L s.alloc.data j ≠ n := Nat.findGreatest_spec (P := fun i => ndAt c.L s.alloc.data i ≠ n)
    (m := n - 1) (by omega) htop
  have hjn : n - 1 ≤ j := Nat.le_findGreatest (by omega) htop
  have hjall : ∀ i, j < i → i < s.nNodes → ndAt c.L s.alloc.data i = n := by
    intro i h1 h2
    have := Nat.findGreatest_is_greatest (P := fun i => ndAt c.L s.alloc.data i ≠ n) (n := s.nNodes - 1) h1 (by omega)
    simpa using this
  have hjN : j + 1 < N0 := by
    have hle : j ≤ s.nNodes - 1 := Nat.findGreatest_le _
    by_contra hcon
    apply hjP
    by_cases h4 : j + 1 = N0
    · have : j = N0 - 1 := by omega
      rw [this]
      exact (B.counted _ (B.last hr)).eq hk
    · have := B.copy_nd hc hk (k := j - N0) (by omega)
      rwa [show N0 + (j - N0) = j by omega] at this
  have hscan := scanRoots_run (c := c) hfit hjP (s.nNodes - 1 - j) (s.nNodes + 2) none (by omega) (by omega)
    (fun i h1 h2 => hjall i h1 (by omega)) (Or.inl ⟨rfl, by omega⟩)
  rw [show j + (s.nNodes - 1 - j) = s.nNodes - 1 by omega] at hscan
  simp only [hscan, bind, Except.bind]
  -- the first and the last root found
  have hfull : (List.range' (j + 1) (s.nNodes - 1 - j)).reverse =
      (s.nNodes - 1) :: ((List.range' (j + 2) (s.nNodes - 1 - j - 2)).reverse ++ [j + 1]) := by
    have e : s.nNodes - 1 - j = 1 + ((s.nNodes - 1 - j - 2) + 1) := by omega
    rw [e, ← List.range'_append_1, ← List.range'_append_1]
    simp
    omega
  have hdrop : ((List.range' (j + 1) (s.nNodes - 1 - j)).reverse).dropLast =
      (List.range' (j + 2) (s.nNodes - (j + 2))).reverse := by
    rw [List.dropLast_reverse]
    congr 1
    have e : s.nNodes - 1 - j = (s.nNodes - (j + 2)) + 1 := by omega
    rw [e, List.range'_succ]
    rfl
  have hgl : ((List.range' (j + 1) (s.nNodes - 1 - j)).reverse).getLastD 0 = j + 1 := by
    rw [hfull, List.getLastD_eq_getLast?, List.getLast?_cons_of_ne_nil (by simp), List.getLast?_concat]
    rfl
  have g1 := getNode_block (c := c) (b := s.alloc.data) hfit (i := s.nNodes - 1) (by omega)
  have g2 := getNode_block (c := c) (b := s.alloc.data) hfit (i := j + 1) (by omega)
  have n1 : Node.nDesc c.L s.alloc.data ((s.nNodes - 1) * c.L.nodeSize) = n := hjall _ (by omega) (by omega)
  have n2 : Node.nDesc c.L s.alloc.data ((j + 1) * c.L.nodeSize) = n := hjall _ (by omega) (by omega)
  have hdd : ∃ roots, dropDup c ⟨s.nNodes * c.L.nodeSize, s.alloc.data⟩
      ((List.range' (j + 1) (s.nNodes - 1 - j)).reverse) = .ok roots ∧
      roots = if childAt c.L s.alloc.data (j + 1) 0 = childAt c.L s.alloc.data (s.nNodes - 1) 0
      then (List.range' (j + 2) (s.nNodes - (j + 2))).reverse
      else (List.range' (j + 1) (s.nNodes - (j + 1))).reverse := by
    obtain ⟨x, xs, hx⟩ : ∃ x xs, (List.range' (j + 2) (s.nNodes - 1 - j - 2)).reverse ++ [j + 1] = x :: xs := by
      cases hl : (List.range' (j + 2) (s.nNodes - 1 - j - 2)).reverse ++ [j + 1] with
      | nil => simp at hl
      | cons x xs => exact ⟨x, xs, rfl⟩
    unfold dropDup
    rw [hgl, hdrop]
    rw [hx] at hfull
    rw [hfull]
    simp only [g1, g2, bind, Except.bind]
    rw [n1, n2, if_neg (by omega)]
    split
    · next he => exact ⟨_, rfl, (if_pos he.symm).symm⟩
    · next he =>
      refine ⟨_, rfl, ?_⟩
      rw [if_neg fun h => he h.symm, ← hfull, show s.nNodes - 1 - j = s.nNodes - (j + 1) by omega]
  obtain ⟨roots, hd1, hd2⟩ := hdd
  simp only [hd1]
  have hnns : countNNS c ⟨s.nNodes * c.L.nodeSize, s.alloc.data⟩ n s.nNodes = .ok s.batchMaxNNS := by
    rw [← B.nns]
    apply countNNS_congr
    intro i hi
    unfold nnsOf
    rw [getNode_block hfit hi]
    have e := (B.mem_eq w (by omega))
    have := B.getNode w hi
    rw [e.1, ← e.2] at this
    rw [this, e.2]
    rfl
  rw [Option.getD_some, hnns]
  refine ⟨_, rfl, ?_, rfl, rfl, rfl, rfl, rfl, j, by omega, hjN, hjP, hjall, hd2⟩
  show h.block w = _
  rw [h2, B.file_block]

/-- With a single item slot the scan runs out of the file. -/
theorem Built.load_one (hc : c.WF) (B : s.Built m n N0) (hn : n = 1) (hk : c.L.CountKept n)
    (hnd : ∀ x, n ≤ x → x < N0 → ndAt c.L s.alloc.data x = 1)
    {bk : Backend} {w : World} {path : String}
    (hread : w.read path = some (s.alloc.block.prefix (s.nNodes * c.L.nodeSize))) (t : Idx c) :
    t.load bk w path = .error .oob := by
  subst hn
  have hL := hc.layout
  have hp := hL.nodeSize_pos
  have hfit := B.size_lt
  have hN := B.nNodes
  have hnle := B.n_le
  have hlen : (s.alloc.block.prefix (s.nNodes * c.L.nodeSize)).length = s.nNodes * c.L.nodeSize := by
    simp [Block.prefix]
  have hpos : 0 < s.nNodes * c.L.nodeSize := Nat.mul_pos (by omega) hp
  obtain ⟨h, h1, h2, h3⟩ := load_read (bk := bk) hread (by
    intro h0
    rw [h0] at hlen
    simp at hlen
    omega) t
  rw [h3, hlen, Nat.mul_mod_left, if_neg (by simp), c.L.wrap_eq hfit, Nat.mul_div_cancel _ hp, B.file_block]
  dsimp only
  rw [if_neg (by omega : ¬ s.nNodes = 0)]
  have hall : ∀ i, i < s.nNodes → ndAt c.L s.alloc.data i = 1 := by
    intro i hi
    by_cases h1 : i < 1
    · have : i = 0 := by omega
      subst this
      obtain ⟨v, hv⟩ := Option.isSome_iff_exists.1 (B.top (by omega))
      exact (B.items _ v hv).nDesc
    · by_cases h2 : i < N0
      · exact hnd i (by omega) h2
      · have := B.copy_nd hc hk (k := i - N0) (by omega)
        rwa [show N0 + (i - N0) = i by omega] at this
  have := scanRoots_fault hL hfit hall (s.nNodes - 1) (s.nNodes + 2) none (by omega) (by omega) (Or.inl rfl)
  simp only [this, bind, Except.bind]

end
end Idx
end Annoy
