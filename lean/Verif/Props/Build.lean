import Verif.Model.Policy
import Verif.Proof.Total
import Verif.Props.Items
/-!
# What Build guarantees: items untouched, forests (C02, C08, C09, C10, C12)
-/
namespace Annoy

/-- Number of nodes `Build` may need, root copies included. -/
def treeRoom (numCPU : Nat) (pol : BuildPolicy) (n : Nat) (trees workers : Int) : Nat :=
  match pol with
  | .single => Idx.buildBound n trees
  | .multi => Conc.multiBound n trees ((numWorkers numCPU workers).getD 0)

/-- A user session: a new index (any generator state, any pre-allocation hint), any legal `AddItem` calls,
giving `s`; then `Build(trees, workers)` with either policy, giving `s'`.  The index stays inside the
address range of the index type. -/
structure Session (c : Cfg) (numCPU : Nat) (pol : BuildPolicy) (adds : List (Nat × List c.N.V))
    (trees workers : Int) (s s' : Idx c) : Prop where
  wf : c.WF
  legal : LegalAdds c adds
  added : ∃ r hint, (Idx.new c r hint).addAll adds = .ok s
  fits : c.L.Fits (treeRoom numCPU pol (slotCount adds) trees workers)
  builds : s.Builds numCPU trees workers pol s'

/-- The added indexes in ascending order. -/
abbrev addedIds {V : Type} (adds : List (Nat × List V)) : List Nat := liveOf (lastAdded adds) (slotCount adds)

/-- Every index below the largest was added. -/
def Dense {V : Type} (adds : List (Nat × List V)) : Prop := ∀ i, i < slotCount adds → (lastAdded adds i).isSome

theorem slotCount_pos {V : Type} {adds : List (Nat × List V)} (h : adds ≠ []) : 0 < slotCount adds := by
  obtain _ | ⟨p, adds⟩ := adds
  · exact absurd rfl h
  · simp [slotCount]

theorem lastAdded_lt {V : Type} (adds : List (Nat × List V)) (i : Nat) (h : (lastAdded adds i).isSome) :
    i < slotCount adds := by
  have : ∃ p ∈ adds, p.1 = i := by
    unfold lastAdded at h
    rw [Option.isSome_map, List.find?_isSome] at h
    obtain ⟨p, hp, e⟩ := h
    exact ⟨p, List.mem_reverse.1 hp, by simpa using e⟩
  clear h
  obtain ⟨p, hp, rfl⟩ := this
  induction adds with
  | nil => cases hp
  | cons q adds ih =>
    simp only [slotCount, List.foldr_cons]
    rcases List.mem_cons.1 hp with rfl | hp
    · omega
    · have := ih hp
      simp only [slotCount] at this
      omega

theorem mem_addedIds {V : Type} {adds : List (Nat × List V)} {i : Nat} :
    i ∈ addedIds adds ↔ (lastAdded adds i).isSome := by
  rw [mem_liveOf]
  exact ⟨And.right, fun h => ⟨lastAdded_lt adds i h, h⟩⟩

theorem Dense.addedIds {V : Type} {adds : List (Nat × List V)} (h : Dense adds) :
    addedIds adds = List.range (slotCount adds) := by
  unfold Annoy.addedIds liveOf
  rw [List.filter_eq_self]
  intro i hi
  exact h i (List.mem_range.1 hi)

namespace Idx
variable {c : Cfg}

theorem Built.mem_eq {s : Idx c} {m : Nat → Option (List c.N.V)} {n N0 : Nat} (h : s.Built m n N0) (w : World)
    (h0 : 0 < s.nNodes) : s.mem w = s.alloc.block ∧ s.bmem = s.alloc.block := by
  have := h.memOK.nodes (by have := h.le_size; omega)
  simp [mem, bmem, this]

theorem Built.getNode {s : Idx c} {m : Nat → Option (List c.N.V)} {n N0 : Nat} (h : s.Built m n N0) (w : World)
    {i : Nat} (hi : i < s.nNodes) : Annoy.getNode c.L (s.mem w) i = .ok (i * c.L.nodeSize) := by
  obtain ⟨h1, h2⟩ := h.mem_eq w (by omega)
  rw [h1, ← h2]
  exact (h.memOK.getNode (by have := h.le_size; omega)).1

theorem Built.n_le_nNodes {s : Idx c} {m : Nat → Option (List c.N.V)} {n N0 : Nat} (h : s.Built m n N0) :
    n ≤ s.nNodes := by have := h.n_le; have := h.nNodes; omega

theorem Built.getItem {s : Idx c} {m : Nat → Option (List c.N.V)} {n N0 : Nat} (h : s.Built m n N0) (w : World)
    {i : Nat} {v : List c.N.V} (hv : m i = some v) : s.getItem w i = .ok v := by
  have hi := h.bound i v hv
  have hn := h.n_le_nNodes
  simp only [Idx.getItem, h.getNode w (by omega : i < s.nNodes), bind, Except.bind]
  rw [(h.mem_eq w (by omega)).1]
  exact congrArg _ (h.items i v hv).vec

theorem _root_.Annoy.ItemAt.same {b b' : Bytes} {a a' : Nat} {v : List c.N.V} (h : ItemAt c b a v) (h' : ItemAt c b' a' v) :
    SameItem c b a b' a' :=
  ⟨h.vec.trans h'.vec.symm, fun j h1 h2 => (h.head j h1 h2).trans (h'.head j h1 h2).symm⟩

end Idx

namespace Session
variable {c : Cfg} {numCPU : Nat} {pol : BuildPolicy} {adds : List (Nat × List c.N.V)} {trees workers : Int}
  {s s' : Idx c}

theorem start (h : Session c numCPU pol adds trees workers s s') :
    s.ItemInv (lastAdded adds) (slotCount adds) ∧ s.built = false ∧ s.roots = [] ∧ s.nNodes = 0 := by
  obtain ⟨r, hint, ha⟩ := h.added
  obtain ⟨s1, h1, h2, h3, h4, h5, _⟩ := addAll_spec h.wf adds _ _ _ (Idx.ItemInv.new c h.wf.layout r hint) h.legal
  rw [ha] at h1
  injection h1 with e
  subst e
  refine ⟨by simpa using h2, h4, h3, h5⟩

/-- What `Build` guarantees with either policy. -/
theorem built (h : Session c numCPU pol adds trees workers s s') :
    ∃ N0, s'.Built (lastAdded adds) (slotCount adds) N0 ∧
      s'.nNodes ≤ treeRoom numCPU pol (slotCount adds) trees workers ∧
      (0 ≤ trees → (pol = .multi → workers ≠ 0) → s'.roots.length = trees.toNat) ∧
      (trees = -1 → (pol = .multi → workers ≠ 0) → 2 * slotCount adds ≤ N0) := by
  obtain ⟨h1, h2, h3, _⟩ := h.start
  have hb := h.builds
  have hf := h.fits
  cases hb with
  | single rf tf lf hb =>
    obtain ⟨N0, B, b1, b2, b3, _⟩ := Idx.build_spec h.wf h1 h2 h3 rf tf lf trees hf hb
    exact ⟨N0, B, b3, fun ht _ => b2 (by omega), fun ht _ => b1 ht⟩
  | @multi _ _ W hW hb =>
    unfold treeRoom at hf ⊢
    rw [hW] at hf ⊢
    have hW0 : workers ≠ 0 → 0 < W := by
      intro h0
      unfold numWorkers at hW
      split at hW
      · injection hW with e
        subst e; unfold umax; split <;> omega
      · split at hW
        · cases hW
        · injection hW with e; omega
    obtain ⟨N0, B, b1, b2, b3, _⟩ := Conc.buildsMulti_spec h.wf h1 h2 h3 trees W hf hb
    exact ⟨N0, B, b3, fun ht hw => b2 ht (hW0 (hw rfl)), fun ht hw => b1 ht (hW0 (hw rfl))⟩

end Session

/-! ### C02 -/

/-- **C02.** `Build` – any number of trees, any policy and number of workers, any schedule, any generator –
leaves `GetItem` of every added item and `GetDistance` of every two added items exactly as before, and the
number of item slots too. -/
theorem C02_items_unchanged {c : Cfg} {numCPU : Nat} {pol : BuildPolicy} {adds : List (Nat × List c.N.V)}
    {trees workers : Int} {s s' : Idx c} (h : Session c numCPU pol adds trees workers s s') (w : World) :
    s'.nItems = s.nItems ∧
    (∀ i v, lastAdded adds i = some v → s'.getItem w i = .ok v ∧ s.getItem w i = .ok v) ∧
    (∀ i j, (lastAdded adds i).isSome → (lastAdded adds j).isSome →
      ∃ d, s'.getDistance w i j = .ok d ∧ s.getDistance w i j = .ok d) := by
  obtain ⟨N0, B, _, _, _⟩ := h.built
  obtain ⟨I, _, _, _⟩ := h.start
  obtain ⟨r, hint, ha⟩ := h.added
  obtain ⟨s1, h1, h2, h3, _⟩ := C01_get_item h.wf r hint w adds h.legal
  rw [ha] at h1
  injection h1 with e
  subst e
  refine ⟨by rw [B.nItems, h2], fun i v hv => ⟨B.getItem w hv, h3 i v hv⟩, ?_⟩
  intro i j hi hj
  obtain ⟨v, hv⟩ := Option.isSome_iff_exists.1 hi
  obtain ⟨u, hu⟩ := Option.isSome_iff_exists.1 hj
  have li := B.bound i v hv
  have lj := B.bound j u hu
  have hn := B.n_le_nNodes
  have hmem : s.mem w = s.alloc.block ∧ s.bmem = s.alloc.block := by
    have := I.memOK.nodes (by have := I.n_le; omega)
    simp [Idx.mem, Idx.bmem, this]
  have gi := (I.memOK.getNode (i := i) (by have := I.n_le; omega)).1
  have gj := (I.memOK.getNode (i := j) (by have := I.n_le; omega)).1
  rw [hmem.2, ← hmem.1] at gi gj
  refine ⟨c.D.normalizedDistance (c.D.distance s.alloc.data (i * c.L.nodeSize) s.alloc.data (j * c.L.nodeSize)),
    ?_, ?_⟩
  · simp only [Idx.getDistance, B.getNode w (by omega : i < s'.nNodes), B.getNode w (by omega : j < s'.nNodes),
      bind, Except.bind]
    rw [(B.mem_eq w (by omega)).1]
    exact congrArg _ (congrArg _ (h.wf.distance _ _ _ _ _ _ _ _ ((B.items i v hv).same (I.items i v hv))
      ((B.items j u hu).same (I.items j u hu))))
  · simp only [Idx.getDistance, gi, gj, bind, Except.bind]
    rw [hmem.1]
    rfl

/-! ### C10 -/

/-- **C10**, number of trees: `Build(T)` with `T ≥ 0` makes exactly `T` trees, with either policy (several
workers: at least one); `Build(-1)` goes on until the index has at least twice as many nodes as item
slots. -/
theorem C10_tree_count {c : Cfg} {numCPU : Nat} {pol : BuildPolicy} {adds : List (Nat × List c.N.V)}
    {trees workers : Int} {s s' : Idx c} (h : Session c numCPU pol adds trees workers s s')
    (hw : pol = .multi → workers ≠ 0) :
    (0 ≤ trees → s'.roots.length = trees.toNat) ∧
    (trees = -1 → 2 * s'.nItems + s'.roots.length ≤ s'.nNodes) := by
  obtain ⟨N0, B, _, h1, h2⟩ := h.built
  refine ⟨fun ht => h1 ht hw, fun ht => ?_⟩
  have := h2 ht hw
  rw [B.nItems, B.nNodes]
  omega

/-! ### C08, C09 -/

/-- Inner nodes survive being written: either there are none (at most `K` slots), or the vector is long enough
for `CopyNode`, which is given the vector length as number of bytes.  With `uint32` indexes and
vectors of length 12 or more this always holds (`splitsKept_of_length`). -/
def SplitsKept (c : Cfg) (numCPU : Nat) (pol : BuildPolicy) (n : Nat) (trees workers : Int) : Prop :=
  n ≤ c.L.K ∨ c.L.Deep (treeRoom numCPU pol n trees workers)

theorem splitsKept_of_length {c : Cfg} {numCPU : Nat} {pol : BuildPolicy} {n : Nat} {trees workers : Int}
    (hc : c.WF) (hf : 3 * c.L.szIX ≤ c.L.f) (h : c.L.Fits (treeRoom numCPU pol n trees workers)) :
    SplitsKept c numCPU pol n trees workers :=
  Or.inr (hc.layout.deep hf (h.lt_range hc.layout.nodeSize_pos).le)

theorem Session.forest {c : Cfg} {numCPU : Nat} {pol : BuildPolicy} {adds : List (Nat × List c.N.V)}
    {trees workers : Int} {s s' : Idx c} (h : Session c numCPU pol adds trees workers s s')
    (hk : SplitsKept c numCPU pol (slotCount adds) trees workers) :
    ∃ N0, s'.Built (lastAdded adds) (slotCount adds) N0 ∧ ∃ ts : List Tree, ts.map Tree.root = s'.roots ∧
      (∀ t ∈ ts, RootTree c.L s'.alloc.data (slotCount adds) (addedIds adds) t) ∧
      (ts.flatMap Tree.inner).Perm (List.range' (slotCount adds) (N0 - slotCount adds)) := by
  obtain ⟨N0, B, hN, _⟩ := h.built
  refine ⟨N0, B, B.forest ?_⟩
  rcases hk with hk | hk
  · exact Or.inr hk
  · exact Or.inl (hk.mono (by have := B.nNodes; omega))

/-- **C09**, given that inner nodes survive (`SplitsKept`): every root of the built index is the root of a well
formed tree over exactly the added items (`RootTree`, `SubTree`: children before parents, so no cycles;
an inner node counts exactly the items below it and has more than `MaxNumChildren` of them; buckets hold two to
`MaxNumChildren` items; no empty subtree; the root counts all slots), and the trees share no nodes: the
tree nodes are exactly the numbers from the item slots up to the root copies, each used once. -/
theorem C09_well_formed_partial {c : Cfg} {numCPU : Nat} {pol : BuildPolicy} {adds : List (Nat × List c.N.V)}
    {trees workers : Int} {s s' : Idx c} (h : Session c numCPU pol adds trees workers s s')
    (hk : SplitsKept c numCPU pol (slotCount adds) trees workers) :
    ∃ ts : List Tree, ts.map Tree.root = s'.roots ∧
      (∀ t ∈ ts, RootTree c.L s'.alloc.data s'.nItems (addedIds adds) t) ∧
      (ts.flatMap Tree.inner).Perm
        (List.range' s'.nItems (s'.nNodes - s'.roots.length - s'.nItems)) := by
  obtain ⟨N0, B, ts, h1, h2, h3⟩ := h.forest hk
  refine ⟨ts, h1, by rw [B.nItems]; exact h2, ?_⟩
  rw [B.nItems, B.nNodes, Nat.add_sub_cancel]
  exact h3

/-- Items of a well formed tree: the added items, or the zero padding of a bucket with unused slots. -/
theorem RootTree.items_perm {L : Layout} {b : Bytes} {n : Nat} {live : List Nat} {t : Tree}
    (h : RootTree L b n live t) (hl : n ≤ L.K → live.length = n) : t.items.Perm live := by
  cases t with
  | item i => exact h.elim
  | hole i => exact h.elim
  | bucket i ids =>
    obtain ⟨_, h2, _, _, l, h5, rfl⟩ := h
    have := h5.length_eq
    rw [hl h2] at this
    simp only [Tree.items, this, Nat.sub_self, List.replicate_zero, List.append_nil]
    exact h5
  | split i l r =>
    obtain ⟨_, _, _, _, _, _, _, h8⟩ := h
    rcases h8 with ⟨_, _, h8, _⟩ | ⟨j, rfl, _, rfl, rfl, _⟩
    · exact h8
    · simp [Tree.items]

/-- **C08**, given that inner nodes survive (`SplitsKept`), and for small indexes that no slot is left out: every
walk from every root ends and visits each added item exactly once and nothing else. -/
theorem C08_each_item_once_partial {c : Cfg} {numCPU : Nat} {pol : BuildPolicy} {adds : List (Nat × List c.N.V)}
    {trees workers : Int} {s s' : Idx c} (h : Session c numCPU pol adds trees workers s s')
    (hk : SplitsKept c numCPU pol (slotCount adds) trees workers)
    (hd : slotCount adds ≤ c.L.K → Dense adds) :
    ∀ r ∈ s'.roots, ∃ fuel l, walk c.L s'.alloc.data s'.nItems fuel r = some l ∧ l.Nodup ∧
      ∀ i, i ∈ l ↔ (lastAdded adds i).isSome := by
  obtain ⟨N0, B, ts, h1, h2, _⟩ := h.forest hk
  intro r hr
  rw [← h1] at hr
  obtain ⟨t, ht, rfl⟩ := List.mem_map.1 hr
  have hR := h2 t ht
  have hp := hR.items_perm fun hK => by rw [(hd hK).addedIds]; simp
  refine ⟨t.size, t.items, ?_, hp.nodup_iff.2 (liveOf_nodup _ _), fun i => hp.mem_iff.trans mem_addedIds⟩
  rw [B.nItems]
  exact hR.holds.walk (by have := h.wf.layout.K_ge; omega) _ le_rfl

/-! ### concrete sessions -/

instance (L : Layout) (n : Nat) : Decidable (L.Fits n) := inferInstanceAs (Decidable (_ < _))

theorem legalAdds_of {c : Cfg} {adds : List (Nat × List c.N.V)}
    (h : (adds.all fun p => decide (p.2.length = c.L.f) && decide (c.L.Fits (p.1 + 1))) = true) :
    LegalAdds c adds := by
  intro p hp
  have := List.all_eq_true.1 h p hp
  rw [Bool.and_eq_true] at this
  exact ⟨of_decide_eq_true this.1, of_decide_eq_true this.2⟩

/-- A session with the single worker policy, computed. -/
def made (c : Cfg) (r : c.R.σ) (adds : List (Nat × List c.N.V)) (trees : Int) : Except Err (Idx c) := do
  (← (Idx.new c r 0).addAll adds).build 10 20 10 trees

theorem made_session {c : Cfg} {r : c.R.σ} {adds : List (Nat × List c.N.V)} {trees : Int} {s' : Idx c}
    (hc : c.WF) (hl : LegalAdds c adds) (hf : c.L.Fits (treeRoom 1 .single (slotCount adds) trees 1))
    (h : made c r adds trees = .ok s') : ∃ s, Session c 1 .single adds trees 1 s s' := by
  unfold made at h
  cases ha : (Idx.new c r 0).addAll adds with
  | error e => rw [ha] at h; cases h
  | ok s =>
    rw [ha] at h
    exact ⟨s, hc, hl, ⟨r, 0, ha⟩, hf, .single 10 20 10 h⟩

/-- A computed session with a property of its result that was computed too. -/
theorem made_with {c : Cfg} {r : c.R.σ} {adds : List (Nat × List c.N.V)} {trees : Int} (p : Idx c → Bool)
    (hc : c.WF) (hl : LegalAdds c adds) (hf : c.L.Fits (treeRoom 1 .single (slotCount adds) trees 1))
    (h : (match made c r adds trees with | .ok s' => p s' | .error _ => false) = true) :
    ∃ s s', Session c 1 .single adds trees 1 s s' ∧ p s' = true := by
  cases hm : made c r adds trees with
  | error e => rw [hm] at h; cases h
  | ok s' =>
    rw [hm] at h
    obtain ⟨s, hs⟩ := made_session hc hl hf hm
    exact ⟨s, s', hs, h⟩

/-- With a generator that can balance sides, and distance functions that do not panic, every session with several
workers can be completed. -/
theorem multi_session {c : Cfg} (hc : c.WF) (ht : Conc.Total c) (hb : Conc.CanBalance c) (r : c.R.σ)
    (adds : List (Nat × List c.N.V)) (hl : LegalAdds c adds) (numCPU : Nat) (trees workers : Int) {W : Nat}
    (hW : numWorkers numCPU workers = some W)
    (hf : c.L.Fits (treeRoom numCPU .multi (slotCount adds) trees workers)) :
    ∃ s s', Session c numCPU .multi adds trees workers s s' := by
  obtain ⟨s, h1, h2, h3, h4, _⟩ := addAll_spec hc adds _ _ _ (Idx.ItemInv.new c hc.layout r 0) hl
  have h2' : s.ItemInv (lastAdded adds) (slotCount adds) := by simpa using h2
  have hr : s.roots = [] := h3
  have hb' : s.built = false := h4
  obtain ⟨s1, g1, g2, g3, g4, g5, g6, _⟩ := Idx.buildStart_spec hc h2' hb'
  have hf' : c.L.Fits (Conc.multiBound (slotCount adds) trees W) := by
    unfold treeRoom at hf; rw [hW] at hf; exact hf
  have hg := Conc.start_good hc g2 g3 g4 g5 (g6.trans hr) trees W (hf'.mono (Conc.room_le _ _ trees W))
  obtain ⟨y, y1, y2⟩ := hg.can_finish hc ht hb
  obtain ⟨G, q1, _⟩ := Conc.multi_grown hc h2' hb' hr trees W hf' g1 y1 y2
  obtain ⟨s', F1, _⟩ := Idx.buildFinish_spec hc G (hf'.mono q1)
  exact ⟨s, s', hc, hl, ⟨r, 0, h1⟩, hf, .multi hW ⟨s1, y, g1, y1, y2, F1⟩⟩

/-- Six `float32` vectors of length 2. -/
def sixAdds : List (Nat × List ieee32.V) :=
  [(0, [x32 0x3f800000, x32 0]), (1, [x32 0, x32 0x3f800000]), (2, [x32 0x3f800000, x32 0x3f800000]),
   (3, [x32 0x40000000, x32 0x3f800000]), (4, [x32 0x3f800000, x32 0x40000000]),
   (5, [x32 0x40400000, x32 0x3f800000])]

/-- Items 0 and 3 only. -/
def sparseAdds : List (Nat × List ieee32.V) := [(0, [x32 0x3f800000, x32 0]), (3, [x32 0, x32 0x3f800000])]

/-- Items 0 and 1. -/
def denseAdds : List (Nat × List ieee32.V) := [(0, [x32 0x3f800000, x32 0]), (1, [x32 0, x32 0x3f800000])]

/-- `n` items with `float32` vectors of length 12, two nonzero components each. -/
def longAdds (n : Nat) : List (Nat × List ieee32.V) :=
  (List.range n).map fun i => (i, x32 0x3f800000 :: x32 (0x3f800000 + i * 0x100000) :: List.replicate 10 (x32 0))

/-- The repository's angular index with `float32`, `uint32`, with the generator that stands for races. -/
def oracle32 (f : Nat) : Cfg := angularCfg ieee32 (bvCodec 4) oracleRng sortNat (sortPairs ieee32) 4 f

theorem oracle32_wf {f : Nat} (hf : 3 * 4 + 4 + f * 4 < 2 ^ 32) : (oracle32 f).WF :=
  angular_wf (externals_concrete ieee32_lawful) (Or.inl rfl) (Or.inl rfl) hf

/-- Two items with the repository's `float32` angular index, one worker: all hypotheses of C02, C09 and C08 hold. -/
example : ∃ s s', Session (angular32 4 2) 1 .single denseAdds 2 1 s s' ∧
    SplitsKept (angular32 4 2) 1 .single (slotCount denseAdds) 2 1 ∧ Dense denseAdds ∧
    s'.roots.length = 2 := by
  obtain ⟨s, s', h, _⟩ := made_with (c := angular32 4 2) (r := Kiss32.new 0) (adds := denseAdds) (trees := 2)
    (fun _ => true) (angular32_wf (Or.inl rfl) (by decide)) (legalAdds_of (by decide +kernel)) (by decide +kernel) (by decide +kernel)
  exact ⟨s, s', h, Or.inl (by decide +kernel), by unfold Dense; decide +kernel,
    (C10_tree_count h (by simp)).1 (by decide)⟩

/-- Twenty items, vectors of length 12, three trees, two workers: trees with inner nodes.  All hypotheses of C02,
C09 and C08 hold, whatever the workers do. -/
example : ∃ s s', Session (oracle32 12) 8 .multi (longAdds 20) 3 2 s s' ∧
    SplitsKept (oracle32 12) 8 .multi (slotCount (longAdds 20)) 3 2 ∧
    (oracle32 12).L.K < slotCount (longAdds 20) ∧ s'.roots.length = 3 := by
  have hc : (oracle32 12).WF := oracle32_wf (by decide)
  have hf : (oracle32 12).L.Fits (treeRoom 8 .multi (slotCount (longAdds 20)) 3 2) := by decide +kernel
  obtain ⟨s, s', h⟩ := multi_session hc (Conc.angular_total oracle_inRange (by decide))
    (Conc.angular_canBalance (by decide)) (fun _ => 0) (longAdds 20) (legalAdds_of (by decide +kernel)) 8 3 2 (W := 2) (by decide) hf
  exact ⟨s, s', h, splitsKept_of_length hc (by decide) hf, by decide +kernel,
    (C10_tree_count h (by simp)).1 (by decide)⟩

/-- Twenty items with the repository's own generator, one worker, computed: each of the two trees reaches all
twenty. -/
example : ∃ s s', Session (angular32 4 12) 1 .single (longAdds 20) 2 1 s s' ∧
    (s'.roots.all fun r => (walk (angular32 4 12).L s'.alloc.data 20 40 r).any fun l =>
      l.length == 20 && (List.range 20).all fun i => l.contains i) = true :=
  made_with (c := angular32 4 12) (r := Kiss32.new 0) (adds := longAdds 20) (trees := 2) _
    (angular32_wf (Or.inl rfl) (by decide)) (legalAdds_of (by decide +kernel)) (by decide +kernel) (by decide +kernel)

/-- **C08 as stated is false**, first reason: with items 0 and 3 only, the root bucket lists item 0 three times. -/
theorem C08_refuted_sparse : ∃ s s', Session (angular32 4 2) 1 .single sparseAdds 1 1 s s' ∧
    ∃ r ∈ s'.roots, ∀ fuel l, walk (angular32 4 2).L s'.alloc.data s'.nItems fuel r = some l → l = [0, 3, 0, 0] := by
  obtain ⟨s, s', h, hp⟩ := made_with (c := angular32 4 2) (r := Kiss32.new 0) (adds := sparseAdds) (trees := 1)
    (fun s' => decide (s'.nItems = 4 ∧ s'.roots = [4] ∧ ndAt (angular32 4 2).L s'.alloc.data 4 = 4 ∧
      childrenAt (angular32 4 2).L s'.alloc.data 4 = [0, 3, 0, 0]))
    (angular32_wf (Or.inl rfl) (by decide)) (legalAdds_of (by decide +kernel)) (by decide +kernel) (by decide +kernel)
  obtain ⟨h1, h2, h3, h4⟩ := of_decide_eq_true hp
  refine ⟨s, s', h, 4, by rw [h2]; simp, ?_⟩
  intro fuel l hl
  obtain _ | fuel := fuel
  · cases hl
  · rw [walk, if_neg (by omega), if_pos (by rw [h3]; decide), h4] at hl
    injection hl with hl
    exact hl.symm

theorem walk_mono {L : Layout} {b : Bytes} {n : Nat} (fuel : Nat) : ∀ i l fuel', fuel ≤ fuel' →
    walk L b n fuel i = some l → walk L b n fuel' i = some l := by
  induction fuel with
  | zero => intro i l fuel' _ h; cases h
  | succ fuel ih =>
    intro i l fuel' hle h
    obtain _ | fuel' := fuel'
    · omega
    unfold walk at h ⊢
    split
    · next h1 => rw [if_pos h1] at h; exact h
    · next h1 =>
      rw [if_neg h1] at h
      split
      · next h2 => rw [if_pos h2] at h; exact h
      · next h2 =>
        rw [if_neg h2] at h
        simp only [Option.bind_eq_bind, Option.bind_eq_some_iff] at h ⊢
        obtain ⟨a, ha, b, hb, e⟩ := h
        exact ⟨a, ih _ _ _ (by omega) ha, b, ih _ _ _ (by omega) hb, e⟩

/-- A walk has one result. -/
theorem walk_det {L : Layout} {b : Bytes} {n fuel fuel' i : Nat} {l l' : List Nat}
    (h : walk L b n fuel i = some l) (h' : walk L b n fuel' i = some l') : l = l' := by
  have h1 := walk_mono fuel i l (max fuel fuel') (by omega) h
  have h2 := walk_mono fuel' i l' (max fuel fuel') (by omega) h'
  rw [h1] at h2
  injection h2

/-- The session behind the next two theorems: six items with vectors of length 2. -/
theorem six_session : ∃ s s', Session (angular32 4 2) 1 .single sixAdds 1 1 s s' ∧ s'.nItems = 6 ∧ s'.roots = [9] ∧
    walk (angular32 4 2).L s'.alloc.data 6 2 9 = some [0, 0] := by
  obtain ⟨s, s', h, hp⟩ := made_with (c := angular32 4 2) (r := Kiss32.new 0) (adds := sixAdds) (trees := 1)
    (fun s' => decide (s'.nItems = 6 ∧ s'.roots = [9] ∧
      walk (angular32 4 2).L s'.alloc.data 6 2 9 = some [0, 0]))
    (angular32_wf (Or.inl rfl) (by decide)) (legalAdds_of (by decide +kernel)) (by decide +kernel) (by decide +kernel)
  exact ⟨s, s', h, of_decide_eq_true hp⟩

/-- **C08 as stated is false**, second reason: six items with vectors of length 2 (`float32`, `uint32`).  The root
lost its children (`CopyNode` copies 2 bytes), every walk finds item 0 twice and nothing else. -/
theorem C08_refuted_short : ∃ s s', Session (angular32 4 2) 1 .single sixAdds 1 1 s s' ∧
    Dense sixAdds ∧ ∃ r ∈ s'.roots, ∀ fuel l, walk (angular32 4 2).L s'.alloc.data s'.nItems fuel r = some l →
      l = [0, 0] := by
  obtain ⟨s, s', h, h1, h2, h3⟩ := six_session
  refine ⟨s, s', h, by unfold Dense; decide +kernel, 9, by rw [h2]; simp, ?_⟩
  intro fuel l hl
  rw [h1] at hl
  exact walk_det hl h3

/-- **C09 as stated is false** for the same index: its root is not the root of a well formed tree. -/
theorem C09_refuted : ∃ s s', Session (angular32 4 2) 1 .single sixAdds 1 1 s s' ∧
    ¬ ∃ ts : List Tree, ts.map Tree.root = s'.roots ∧
      ∀ t ∈ ts, RootTree (angular32 4 2).L s'.alloc.data s'.nItems (addedIds sixAdds) t := by
  obtain ⟨s, s', h, h1, h2, h3⟩ := six_session
  refine ⟨s, s', h, ?_⟩
  rintro ⟨ts, e, ht⟩
  rw [h2] at e
  obtain ⟨t, rfl⟩ : ∃ t, ts = [t] := by
    have := congrArg List.length e
    rw [List.length_map] at this
    exact List.length_eq_one_iff.1 this
  have hR := ht t (by simp)
  simp only [List.map_cons, List.map_nil, List.cons.injEq, and_true] at e
  have hw := hR.holds.walk (by decide) t.size le_rfl
  rw [e, h1] at hw
  have := walk_det h3 hw
  have hp := hR.items_perm (fun hK => by rw [h1] at hK ⊢; exact absurd hK (by decide))
  rw [← this] at hp
  exact absurd hp.length_eq (by decide +kernel)

/-- **C61.** A tree over at most `MaxNumChildren` slots lists the added items and pads with zeros for the slots left
out. -/
theorem C61_padding {c : Cfg} {numCPU : Nat} {pol : BuildPolicy} {adds : List (Nat × List c.N.V)}
    {trees workers : Int} {s s' : Idx c} (h : Session c numCPU pol adds trees workers s s')
    (hn : slotCount adds ≤ c.L.K) :
    ∀ r ∈ s'.roots, ∃ l, l.Perm (addedIds adds) ∧
      walk c.L s'.alloc.data s'.nItems 1 r = some (l ++ List.replicate (slotCount adds - l.length) 0) := by
  obtain ⟨N0, B, ts, h1, h2, _⟩ := h.forest (Or.inl hn)
  intro r hr
  rw [← h1] at hr
  obtain ⟨t, ht, rfl⟩ := List.mem_map.1 hr
  have hR := h2 t ht
  cases t with
  | item i => exact hR.elim
  | hole i => exact hR.elim
  | bucket i ids =>
    obtain ⟨_, _, _, _, l, h5, rfl⟩ := hR
    refine ⟨l, h5, ?_⟩
    rw [B.nItems]
    exact (h2 _ ht).holds.walk (by have := h.wf.layout.K_ge; omega) 1 le_rfl
  | split i l r => exact absurd hR.2.2.2.1 (by omega)

end Annoy
