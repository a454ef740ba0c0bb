import Verif.Props.Items
import Verif.Props.Kiss
/-!
# How large may an index become? (C102)

Node addresses and sizes of blocks are computed in the index type.  Growing a block by the factor 1.5 overflows before the addresses do.
-/
namespace Annoy

variable {c : Cfg}

/-- The state of an index to which the items `0 … n - 1` were added without overflow. -/
structure Grown (s : Idx c) (n : Nat) : Prop where
  unloaded : s.loaded = false
  enough : n ≤ s.nodesSize
  some : s.nodesSize = 0 → n = 0 ∧ s.alloc.size = 0
  block : 0 < s.nodesSize → s.nodes = .build ∧ s.alloc.present = true
  size : s.alloc.size = s.nodesSize * c.L.nodeSize
  below : s.nodesSize * c.L.nodeSize < c.L.range

theorem Grown.new (r : c.R.σ) : Grown (Idx.new c r 0) 0 := by
  refine ⟨rfl, Nat.zero_le _, fun _ => ⟨rfl, rfl⟩, fun h => absurd h (by simp [Idx.new]), ?_, ?_⟩
  · simp [Idx.new, Alloc.empty]
  · simpa [Idx.new] using Nat.pos_of_ne_zero (by unfold Layout.range; positivity)

/-- One more item either works, or the block cannot grow any more and the item is written behind it. -/
theorem Grown.addItem (hL : c.L.Ok c.C.sz) (h4 : 4 * c.L.nodeSize ≤ c.L.range) {s : Idx c} {n : Nat} (h : Grown s n) {v : List c.N.V} (hv : v.length = c.L.f) :
    (∃ s', s.addItem n v = .ok s' ∧ Grown s' (n + 1)) ∨
    (s.addItem n v = .error .oob ∧ n * c.L.nodeSize < c.L.range ∧ ¬ c.L.Fits (n + 1)) := by
  have hp := hL.nodeSize_pos
  have h3 := hL.three_le
  have hpos := hL.szIX_pos
  have hsz : s.nodesSize * c.L.nodeSize < c.L.range := h.below
  have hn : n * c.L.nodeSize < c.L.range := lt_of_le_of_lt (Nat.mul_le_mul_right _ h.enough) hsz
  have h3' : 3 ≤ c.L.nodeSize := by omega
  have hsm : s.nodesSize * 3 < c.L.range := lt_of_le_of_lt (Nat.mul_le_mul_left _ h3') hsz
  have haddr : c.L.addr n = n * c.L.nodeSize := c.L.wrap_eq hn
  have hw1 : c.L.wrap (n + 1) = n + 1 := c.L.wrap_eq (by have := h.enough; omega)
  unfold Idx.addItem
  rw [h.unloaded]
  simp only [Bool.false_eq_true, if_false, hv, ne_eq, not_true_eq_false, hw1]
  by_cases hlt : n < s.nodesSize
  · left
    have e : s.allocateSize (n + 1) = s := by unfold Idx.allocateSize; rw [if_neg (by omega)]
    have hle : (n + 1) * c.L.nodeSize ≤ s.nodesSize * c.L.nodeSize := Nat.mul_le_mul_right _ hlt
    have hg : getNode c.L s.bmem n = .ok (n * c.L.nodeSize) := by
      unfold getNode
      rw [haddr, if_pos]
      show _ ≤ s.bmem.size
      have : s.bmem.size = s.alloc.size := by
        unfold Idx.bmem
        rw [(h.block (by omega)).1]
        rfl
      rw [this, h.size]
      rw [Nat.add_mul] at hle
      omega
    rw [e, hg]
    refine ⟨_, rfl, ?_⟩
    split <;> exact ⟨h.unloaded, hlt, fun e => absurd e (by show s.nodesSize ≠ 0; omega), h.block, h.size, h.below⟩
  · have hnk : n = s.nodesSize := le_antisymm h.enough (by omega)
    subst hnk
    set k := s.nodesSize with hk
    have hsize : s.alloc.size = k * c.L.nodeSize := h.size
    -- the new number of nodes
    have hw2 : c.L.wrap (k + 1) = k + 1 := hw1
    have hw3 : c.L.wrap ((k + 1) * 3 / 2) = (k + 1) * 3 / 2 := c.L.wrap_eq (by omega)
    have hmax : max (k + 1) ((k + 1) * 3 / 2) = if k = 0 then 1 else (k + 1) * 3 / 2 := by split <;> omega
    obtain ⟨K, hK⟩ : ∃ K, K = max (k + 1) ((k + 1) * 3 / 2) := ⟨_, rfl⟩
    have hK1 : k + 1 ≤ K := by omega
    have hK2 : 2 * K ≤ 3 * (k + 1) := by omega
    have e : s.allocateSize (k + 1) = { s with nodes := .build, alloc := s.alloc.reallocate (c.L.wrap (K * c.L.nodeSize)), nodesSize := K } := by
      unfold Idx.allocateSize
      rw [if_pos (by omega), ← hk, hw2, hw3, ← hK]
    rw [e]
    have hle : (k + 1) * c.L.nodeSize ≤ K * c.L.nodeSize := Nat.mul_le_mul_right _ hK1
    have hle2 : 2 * (K * c.L.nodeSize) ≤ 3 * (k * c.L.nodeSize) + 3 * c.L.nodeSize := by
      have := Nat.mul_le_mul_right c.L.nodeSize hK2
      rw [Nat.mul_assoc, Nat.mul_assoc, Nat.add_mul, Nat.one_mul, Nat.mul_add] at this
      exact this
    rw [Nat.add_mul, Nat.one_mul] at hle
    by_cases hfit : K * c.L.nodeSize < c.L.range
    · left
      have hwK : c.L.wrap (K * c.L.nodeSize) = K * c.L.nodeSize := c.L.wrap_eq hfit
      have hre : (s.alloc.reallocate (K * c.L.nodeSize)).size = K * c.L.nodeSize ∧ (s.alloc.reallocate (K * c.L.nodeSize)).present = true := by
        unfold Alloc.reallocate
        rw [if_neg (by rw [hsize]; omega)]
        exact ⟨rfl, rfl⟩
      rw [hwK]
      have hg : getNode c.L (Idx.bmem { s with nodes := .build, alloc := s.alloc.reallocate (K * c.L.nodeSize), nodesSize := K }) k =
          .ok (k * c.L.nodeSize) := by
        unfold getNode
        rw [haddr, if_pos]
        show _ ≤ (s.alloc.reallocate (K * c.L.nodeSize)).size
        rw [hre.1]
        exact hle
      rw [hg]
      refine ⟨_, rfl, ?_⟩
      split <;> exact ⟨h.unloaded, hK1, fun e => absurd e (by show K ≠ 0; omega), fun _ => ⟨rfl, hre.2⟩, hre.1, hfit⟩
    · right
      have hk0 : 0 < k := by
        rcases Nat.eq_zero_or_pos k with h0 | h0
        · exfalso
          have : K = 1 := by omega
          subst this
          omega
        · exact h0
      have hwK : c.L.wrap (K * c.L.nodeSize) = K * c.L.nodeSize - c.L.range := by
        unfold Layout.wrap
        rw [Nat.mod_eq_sub_mod (by omega), Nat.mod_eq_of_lt (by omega)]
      have hre : s.alloc.reallocate (K * c.L.nodeSize - c.L.range) = s.alloc := by
        unfold Alloc.reallocate
        rw [if_pos ⟨(h.block hk0).2, by rw [hsize]; omega⟩]
      have hg : getNode c.L (Idx.bmem { s with nodes := .build, alloc := s.alloc.reallocate (c.L.wrap (K * c.L.nodeSize)), nodesSize := K }) k =
          .error .oob := by
        unfold getNode
        rw [haddr, if_neg]
        show ¬ _ ≤ (s.alloc.reallocate (c.L.wrap (K * c.L.nodeSize))).size
        rw [hwK, hre, hsize]
        omega
      rw [hg]
      refine ⟨rfl, hsz, ?_⟩
      unfold Layout.Fits
      rw [Nat.mul_assoc, Nat.add_mul, Nat.mul_add, Nat.one_mul]
      omega

/-- The vectors `v 0, v 1, …` under the numbers `0, 1, …, n - 1`. -/
def inOrder {V : Type} (v : Nat → List V) (n : Nat) : List (Nat × List V) := (List.range n).map fun i => (i, v i)

theorem Idx.addAll_two : ∀ (a b : List (Nat × List c.N.V)) (s : Idx c), s.addAll (a ++ b) = s.addAll a >>= fun s => s.addAll b
  | [], _, _ => rfl
  | (i, v) :: a, b, s => by
    have h1 : s.addAll ((i, v) :: (a ++ b)) = s.addItem i v >>= fun s => s.addAll (a ++ b) := rfl
    have h2 : s.addAll ((i, v) :: a) = s.addItem i v >>= fun s => s.addAll a := rfl
    rw [List.cons_append, h1, h2]
    cases s.addItem i v with
    | error e => rfl
    | ok s1 => exact Idx.addAll_two a b s1

/-- **C102**, for indexes of at most two thirds of the range of the index type (in bytes).  (Missing: larger ones, where the claim is false, see
`C102_refuted` and `C102_alias_refuted`.) -/
theorem C102_partial (hc : c.WF) (r : c.R.σ) (hint : Nat) (w : World) (v : Nat → List c.N.V) (hv : ∀ i, (v i).length = c.L.f) {n : Nat} (hn : c.L.Fits n) :
    ∃ s, (Idx.new c r hint).addAll (inOrder v n) = .ok s ∧ ∀ i < n, s.getItem w i = .ok (v i) := by
  obtain ⟨s, h1, -, h2, -⟩ := C01_get_item hc r hint w (inOrder v n) (by
    intro p hp
    obtain ⟨i, hi, rfl⟩ := List.mem_map.1 hp
    refine ⟨hv i, ?_⟩
    unfold Layout.Fits at hn ⊢
    have := Nat.mul_le_mul_right c.L.nodeSize (Nat.mul_le_mul_left 3 (List.mem_range.1 hi))
    exact lt_of_le_of_lt this hn)
  refine ⟨s, h1, fun i hi => h2 i (v i) ?_⟩
  have key : ∀ n, i < n → lastAdded (inOrder v n) i = some (v i) := by
    intro n
    induction n with
    | zero => intro h; omega
    | succ n ih =>
      intro h
      have e : inOrder v (n + 1) = inOrder v n ++ [(n, v n)] := by simp [inOrder, List.range_succ]
      rw [e, lastAdded_append]
      by_cases hin : i = n
      · subst hin; simp [lastAdded]
      · rw [ih (by omega)]
        simp [lastAdded, Ne.symm hin]
  exact key n hi

/-- **C102 is false**: on every index whose items are added one after the other there comes a moment when the index is smaller than the range of the index
type, all items so far were accepted, and the next `AddItem` writes its vector behind the memory of the index.  (`Reallocate` is asked for 1.5 times the
size, computed in the index type, which has become smaller than the block there is.)  This item is the first for which `Fits` fails after a growth:
`C01_get_item` shows that everything is right below. -/
theorem C102_refuted (hc : c.WF) (h4 : 4 * c.L.nodeSize ≤ c.L.range) (r : c.R.σ) (v : Nat → List c.N.V) (hv : ∀ i, (v i).length = c.L.f) :
    ∃ n s, (Idx.new c r 0).addAll (inOrder v n) = .ok s ∧ n * c.L.nodeSize < c.L.range ∧ ¬ c.L.Fits (n + 1) ∧ s.addItem n (v n) = .error .oob := by
  have hp := hc.layout.nodeSize_pos
  by_contra hcon
  have key : ∀ n, ∃ s, (Idx.new c r 0).addAll (inOrder v n) = .ok s ∧ Grown s n := by
    intro n
    induction n with
    | zero => exact ⟨_, rfl, Grown.new r⟩
    | succ n ih =>
      obtain ⟨s, h1, h2⟩ := ih
      rcases h2.addItem hc.layout h4 (hv n) with ⟨s', h3, h5⟩ | ⟨h3, h5, h6⟩
      · refine ⟨s', ?_, h5⟩
        have : inOrder v (n + 1) = inOrder v n ++ [(n, v n)] := by simp [inOrder, List.range_succ]
        rw [this, Idx.addAll_two, h1]
        show Idx.addAll s [(n, v n)] = _
        unfold Idx.addAll
        rw [h3]
        rfl
      · exact absurd ⟨n, s, h1, h5, h6, h3⟩ hcon
  obtain ⟨s, -, h⟩ := key c.L.range
  have h1 : c.L.range * c.L.nodeSize < c.L.range := lt_of_le_of_lt (Nat.mul_le_mul_right _ h.enough) h.below
  have := Nat.le_mul_of_pos_right c.L.range hp
  omega

/-- Vectors of 100 `float32` components: nodes of 412 bytes, so it happens between 6.8 and 10.5 million items. -/
example : (angular32 4 100).L.nodeSize = 412 ∧ 4 * (angular32 4 100).L.nodeSize ≤ (angular32 4 100).L.range ∧
    (∀ n, ¬ (angular32 4 100).L.Fits (n + 1) → 6800000 < n) ∧ (∀ n, n * (angular32 4 100).L.nodeSize < (angular32 4 100).L.range → n < 10500000) := by
  have e1 : (angular32 4 100).L.nodeSize = 412 := by decide
  have e2 : (angular32 4 100).L.range = 2 ^ 32 := by decide
  refine ⟨e1, by rw [e1, e2]; decide, fun n h => ?_, fun n h => ?_⟩
  · unfold Layout.Fits at h
    rw [e1, e2] at h
    omega
  · rw [e1, e2] at h
    omega

/-- `AddItem` once the memory is there. -/
theorem Idx.addItem_at (hc : c.WF) {s s1 : Idx c} (hs : s.loaded = false) {v : List c.N.V} (hv : v.length = c.L.f) {i a : Nat}
    (he : s.allocateSize (c.L.wrap (i + 1)) = s1) (hn : s1.nodes = .build) (hg : c.L.addr i = a) (hb : a + c.L.nodeSize ≤ s1.alloc.size)
    (hl : s1.loaded = false) (hold : EmptyAt c s1.alloc.data a ∨ ∃ v', ItemAt c s1.alloc.data a v') :
    ∃ s', s.addItem i v = .ok s' ∧ s'.nodes = .build ∧ s'.loaded = false ∧ s'.nodesSize = s1.nodesSize ∧ s'.alloc.size = s1.alloc.size ∧
      s'.alloc.present = s1.alloc.present ∧ ItemAt c s'.alloc.data a v := by
  have hg' : getNode c.L s1.bmem i = .ok a := by
    unfold getNode
    rw [hg, if_pos]
    unfold Idx.bmem
    rw [hn]
    exact hb
  have hi := (writeItem hc s1.alloc.data a v hv hold).1
  unfold Idx.addItem
  rw [hs]
  simp only [Bool.false_eq_true, if_false, hv, ne_eq, not_true_eq_false, he]
  rw [hg']
  refine ⟨_, rfl, ?_⟩
  split <;> exact ⟨hn, hl, rfl, rfl, rfl, hi⟩

theorem Idx.getItem_at {s : Idx c} (hn : s.nodes = .build) {a i : Nat} (hg : c.L.addr i = a) (hb : a + c.L.nodeSize ≤ s.alloc.size) {v : List c.N.V}
    (hi : ItemAt c s.alloc.data a v) (w : World) : s.getItem w i = .ok v := by
  have hm : s.mem w = ⟨s.alloc.size, s.alloc.data⟩ := by
    unfold Idx.mem
    rw [hn]
    rfl
  unfold Idx.getItem getNode
  rw [hm, hg, if_pos hb]
  exact congrArg Except.ok hi.vec

/-- **C102 is false** also for few items: on an index with `uint32` numbers whose node size is a multiple of four (as all of the repository), item `2^30` is stored
at the place of item 0. -/
theorem C102_alias_refuted (hc : c.WF) (h32 : c.L.szIX = 4) (hd : 4 ∣ c.L.nodeSize) (r : c.R.σ) (w : World) {u v : List c.N.V} (hu : u.length = c.L.f)
    (hv : v.length = c.L.f) : ∃ s s', (Idx.new c r 0).addItem 0 u = .ok s ∧ s.getItem w 0 = .ok u ∧ s.addItem (2 ^ 30) v = .ok s' ∧
      s'.getItem w 0 = .ok v ∧ s'.getItem w (2 ^ 30) = .ok v ∧ ∀ x : List c.N.V, x.length = c.L.f → s'.addItem 1 x = .error .oob := by
  have hL := hc.layout
  have hrange : c.L.range = 2 ^ 32 := by unfold Layout.range; rw [h32]
  have hns := hL.size_lt
  have hp := hL.nodeSize_pos
  obtain ⟨q, hq⟩ := hd
  have hal : c.L.addr (2 ^ 30) = 0 := by
    unfold Layout.addr Layout.wrap
    rw [hq, hrange]
    omega
  have ha0 : c.L.addr 0 = 0 := by unfold Layout.addr Layout.wrap; simp
  have hw1 : c.L.wrap 1 = 1 := c.L.wrap_eq (by rw [hrange]; decide)
  have hws : c.L.wrap c.L.nodeSize = c.L.nodeSize := c.L.wrap_eq hns
  have hbig : c.L.wrap (2 ^ 30 + 1) = 2 ^ 30 + 1 := c.L.wrap_eq (by rw [hrange]; decide)
  -- the first item
  obtain ⟨s, a1, a2, a3, a4, a5, a6, a7⟩ := Idx.addItem_at hc (s := Idx.new c r 0)
    (s1 := { Idx.new c r 0 with nodes := .build, alloc := (Idx.new c r 0).alloc.reallocate c.L.nodeSize, nodesSize := 1 }) rfl hu (i := 0) (a := 0)
    (by
      unfold Idx.allocateSize
      rw [hw1, if_pos (by simp [Idx.new])]
      have e : max 1 (c.L.wrap (c.L.wrap ((Idx.new c r 0).nodesSize + 1) * 3 / 2)) = 1 := by
        show max 1 (c.L.wrap (c.L.wrap 1 * 3 / 2)) = 1
        rw [hw1, hw1]
        rfl
      simp only [e, Nat.one_mul, hws]) rfl ha0
    (by simp [Idx.new, Alloc.reallocate, Alloc.empty]) rfl
    (Or.inl (by intro j hj; simp [Idx.new, Alloc.reallocate, Alloc.empty]))
  have b5 : s.alloc.size = c.L.nodeSize := by rw [a5]; simp [Idx.new, Alloc.reallocate, Alloc.empty]
  -- item 2^30 makes the index believe in more memory than there is
  have hre : s.alloc.reallocate c.L.nodeSize = ⟨true, c.L.nodeSize, ⟨fun x => if x < s.alloc.size then s.alloc.data x else 0⟩⟩ := by
    unfold Alloc.reallocate
    rw [if_neg (by rw [b5]; omega)]
  obtain ⟨s', c1, c2, c3, c4, c5, c6, c7⟩ := Idx.addItem_at hc (s := s)
    (s1 := { s with nodes := .build, alloc := s.alloc.reallocate c.L.nodeSize, nodesSize := 2 ^ 30 + 1 }) a3 hv (i := 2 ^ 30) (a := 0)
    (by
      unfold Idx.allocateSize
      rw [hbig, a4, if_pos (by show 2 ^ 30 + 1 > 1; decide)]
      have e : max (2 ^ 30 + 1) (c.L.wrap (c.L.wrap (1 + 1) * 3 / 2)) = 2 ^ 30 + 1 := by
        apply max_eq_left
        unfold Layout.wrap
        rw [hrange]
        decide
      have e2 : c.L.wrap ((2 ^ 30 + 1) * c.L.nodeSize) = c.L.nodeSize := by
        unfold Layout.wrap
        rw [hrange, hq]
        rw [hq, hrange] at hns
        omega
      simp only [e, e2]) rfl hal (by rw [hre]; simp) a3
    (Or.inr ⟨u, by
      have hoff := hL.offV_ge
      have hsz := hL.size_eq
      have hf : ∀ j, j < c.L.nodeSize → (s.alloc.reallocate c.L.nodeSize).data (0 + j) = s.alloc.data (0 + j) := by
        intro j hj
        rw [hre]
        show (if 0 + j < s.alloc.size then s.alloc.data (0 + j) else 0) = _
        rw [if_pos (by rw [b5]; omega)]
      constructor
      · rw [← a7.nDesc]; exact Node.nDesc_congr fun j hj => hf j (by omega)
      · rw [← a7.vec]; apply Node.vec_congr; intro j hj
        have := hf (c.L.offV + j) (by omega)
        simpa [Nat.add_assoc] using this
      · intro j h1 h2; rw [show (0 : Nat) + j = 0 + j from rfl, hf j (by omega)]; exact a7.head j h1 h2⟩)
  refine ⟨s, s', a1, Idx.getItem_at a2 ha0 (by rw [b5]; simp) a7 w, c1, ?_, ?_, fun x hx => ?_⟩
  · exact Idx.getItem_at c2 ha0 (by rw [c5, hre]; simp) c7 w
  · exact Idx.getItem_at c2 hal (by rw [c5, hre]; simp) c7 w
  · unfold Idx.addItem
    have hw2 : c.L.wrap (1 + 1) = 2 := c.L.wrap_eq (by rw [hrange]; decide)
    have ha1 : c.L.addr 1 = c.L.nodeSize := by unfold Layout.addr; rw [Nat.one_mul, hws]
    have e : s'.allocateSize (c.L.wrap (1 + 1)) = s' := by
      unfold Idx.allocateSize
      rw [if_neg (by rw [hw2, c4]; show ¬ 2 > 2 ^ 30 + 1; decide)]
    have hg : getNode c.L s'.bmem 1 = .error .oob := by
      unfold getNode
      rw [ha1, if_neg]
      unfold Idx.bmem
      rw [c2]
      show ¬ _ ≤ s'.alloc.size
      rw [c5, hre]
      show ¬ _ ≤ c.L.nodeSize
      omega
    rw [c3]
    simp only [Bool.false_eq_true, if_false, hx, ne_eq, not_true_eq_false, e]
    rw [hg]
    rfl

/-- The four kinds of index of the repository meet the hypotheses. -/
theorem Index32.alias {c : Cfg} (h : Index32 c) : c.L.szIX = 4 ∧ 4 ∣ c.L.nodeSize := by
  have e4 : alignUp (3 * 4) 4 = 12 := by decide
  have e8 : alignUp (3 * 4) 8 = 16 := by decide
  cases h with
  | @angular32 f _ _ =>
    refine ⟨rfl, ?_⟩
    show 4 ∣ (alignUp (3 * 4) 4 + f * 4) % 2 ^ 32
    rw [e4]
    omega
  | @angular64 f _ _ =>
    refine ⟨rfl, ?_⟩
    show 4 ∣ (alignUp (3 * 4) 8 + f * 8) % 2 ^ 32
    rw [e8]
    omega
  | @dot32 f _ _ =>
    refine ⟨rfl, ?_⟩
    show 4 ∣ (alignUp (3 * 4) 4 + 4 + f * 4) % 2 ^ 32
    rw [e4]
    omega
  | @dot64 f _ _ =>
    refine ⟨rfl, ?_⟩
    show 4 ∣ (alignUp (3 * 4) 8 + 8 + f * 8) % 2 ^ 32
    rw [e8]
    omega

/-- Six million items of 100 dimensions are inside the limits of `C102_partial`, seven million are not. -/
example : (angular32 4 100).WF ∧ (angular32 4 100).L.Fits 6000000 ∧ ¬ (angular32 4 100).L.Fits 7000000 :=
  ⟨angular32_wf (Or.inl rfl) (by decide), by decide, by decide⟩

end Annoy
