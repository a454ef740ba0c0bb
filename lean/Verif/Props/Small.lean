import Verif.Props.Pages
import Verif.Props.Context
import Verif.Props.Files
import Verif.Props.FirstTree
import Verif.Props.OwnVector
/-!
# Small indexes (C125) and the program of the README (C126)
-/
namespace Annoy

namespace Search
variable {c : Cfg} {mem : Block} {n : Nat} {roots : List Nat}

/-- The first node that a search takes from its queue is the root with the smallest number; if it is a bucket, then what it lists is
collected. -/
theorem first_bucket (hN : c.N.Lawful) (h0 : c.N.Ordinary c.D.pqInitialValue) {query : List c.N.V} {budget : Int} {fuel : Nat} {col : List Nat}
    (hcol : collect mem n query budget fuel (initQueue c roots) [] = .ok col) (hb : 0 < budget) {r : Nat} (hr : r ∈ roots)
    (hmin : ∀ x ∈ roots, r ≤ x) (hg : getNode c.L mem r = .ok (r * c.L.nodeSize)) (hni : n ≤ r) (hK : ndAt c.L mem.get r ≤ c.L.K) :
    childrenAt c.L mem.get r <+: col := by
  have hperm := initQueue_perm (c := c) roots
  cases fuel with
  | zero => cases hcol
  | succ fuel =>
    unfold collect at hcol
    rw [if_pos (by simpa using hb)] at hcol
    cases hp : Heap.pop (pairLess c.N) (initQueue c roots) with
    | none =>
      rw [(Heap.pop_none _ _).1 hp] at hperm
      have := hperm.length_eq
      rw [List.length_map] at this
      rw [List.length_eq_zero_iff.1 this.symm] at hr
      cases hr
    | some x =>
      obtain ⟨⟨d, i⟩, q'⟩ := x
      have hall : ∀ y ∈ initQueue c roots, ∃ x ∈ roots, y = (c.D.pqInitialValue, x) := by
        intro y hy
        obtain ⟨x, hx, rfl⟩ := List.mem_map.1 (hperm.subset hy)
        exact ⟨x, hx, rfl⟩
      obtain ⟨-, -, hle⟩ := Heap.pop_heap (pairOrd hN) _ _ _ (by
        intro y hy
        obtain ⟨x, -, rfl⟩ := hall y hy
        exact h0) (initQueue_heap hN h0 roots) hp
      obtain ⟨x, hx, e⟩ := hall (d, i) ((Heap.pop_perm _ _ _ _ hp).subset (by simp))
      cases e
      have hir : i = r := by
        have h1 := hle (c.D.pqInitialValue, r) (hperm.symm.subset (List.mem_map.2 ⟨r, hr, rfl⟩))
        have h2 := hmin i hx
        by_contra hne
        have h3 : PairLt c.N (c.D.pqInitialValue, r) (c.D.pqInitialValue, i) := Or.inr ⟨h0, by show r < i; omega⟩
        rw [← pairLess_iff] at h3
        exact Bool.false_ne_true (h1.symm.trans h3)
      subst hir
      rw [hp] at hcol
      simp only [hg, bind, Except.bind] at hcol
      rw [if_neg (by omega), if_pos hK] at hcol
      simpa using collect_prefix _ hcol

end Search

section
variable {c : Cfg} {numCPU : Nat} {pol : BuildPolicy} {adds : List (Nat × List c.N.V)} {trees workers : Int} {s s' : Idx c}

/-- An index with at most `K` slots: every tree is one node, and the nodes behind the items are these trees and then their copies, each with
the number of slots as its count. -/
theorem Session.small (h : Session c numCPU pol adds trees workers s s') (hK : slotCount adds ≤ c.L.K)
    (hk : c.L.CountKept (slotCount adds)) {N0 : Nat} (B : s'.Built (lastAdded adds) (slotCount adds) N0) :
    N0 = slotCount adds + s'.roots.length ∧
      (∀ x, slotCount adds ≤ x → x < s'.nNodes → ndAt c.L s'.alloc.data x = slotCount adds) ∧
      ∀ x, slotCount adds ≤ x → x < N0 → ∀ i ∈ addedIds adds, i ∈ childrenAt c.L s'.alloc.data x := by
  obtain ⟨ts, t1, t2, t3⟩ := B.forest (Or.inr hK)
  have hN := B.nNodes
  have hle := B.n_le
  have hin : ∀ t ∈ ts, t.inner = [t.root] := by
    intro t ht
    have hR := t2 t ht
    cases t with
    | item i => exact hR.elim
    | hole i => exact hR.elim
    | bucket i l => rfl
    | split i l r => have := hR.2.2.2.1; omega
  have e : ts.flatMap Tree.inner = s'.roots := by
    rw [← t1]
    clear t1 t2 t3
    induction ts with
    | nil => rfl
    | cons t ts ih =>
      rw [List.flatMap_cons, hin t (by simp), ih fun u hu => hin u (by simp [hu])]
      rfl
  rw [e] at t3
  have hlen := t3.length_eq
  rw [List.length_range'] at hlen
  refine ⟨by omega, fun x h1 h2 => ?_, fun x h1 h2 i hi => ?_⟩
  · by_cases hx : x < N0
    · exact (B.counted x (t3.symm.subset (List.mem_range'_1.2 ⟨h1, by omega⟩))).eq hk
    · have := B.copy_count h.wf (k := x - N0) (by omega)
      rw [show N0 + (x - N0) = x by omega] at this
      rw [this]
      exact Nat.mod_eq_of_lt hk
  · have hx : x ∈ s'.roots := t3.symm.subset (List.mem_range'_1.2 ⟨h1, by omega⟩)
    rw [← t1] at hx
    obtain ⟨t, ht, rfl⟩ := List.mem_map.1 hx
    have hR := t2 t ht
    cases t with
    | item i => exact hR.elim
    | hole i => exact hR.elim
    | bucket j l =>
      obtain ⟨_, _, _, g4, l', g5, g6⟩ := hR
      show i ∈ childrenAt c.L s'.alloc.data j
      rw [g4, g6]
      exact List.mem_append_left _ (g5.symm.subset hi)
    | split i l r => have := hR.2.2.2.1; omega

/-- What is collected when every item is. -/
theorem addedIds_among {col : List Nat} (h : ∀ i ∈ addedIds adds, i ∈ col) :
    (itemsAmong (lastAdded adds) (slotCount adds) col).Perm (addedIds adds) := by
  refine (List.perm_ext_iff_of_nodup (itemsAmong_nodup _ _ _) (liveOf_nodup _ _)).2 fun i => ?_
  rw [mem_itemsAmong, mem_addedIds]
  exact ⟨fun hi => hi.2.2, fun hi => ⟨lastAdded_lt _ _ hi, h i (mem_addedIds.2 hi), hi⟩⟩

theorem TopK.of_perm {N : Num} {norm : N.V → N.V} {δ : Nat → N.V} {S S' : List Nat} {k : Nat} {ids : List Nat} {ds : List N.V}
    (h : TopK N norm δ S k ids ds) (hS : S.Perm S') : TopK N norm δ S' k ids ds :=
  ⟨by rw [h.length, hS.length_eq], h.nodup, fun i hi => hS.subset (h.sub i hi), h.dists,
    fun ho => h.sorted fun i hi => ho i (hS.subset hi),
    fun ho i hi j hj hn => h.least (fun i hi => ho i (hS.subset hi)) i hi j (hS.symm.subset hj) hn⟩

/-- **C125**: in an index with at most `K` slots (`MaxNumChildren`) and at least one tree, every search that may look at anything at all
gives the exact answer, whatever its budget. -/
theorem Session.C125_small (h : Session c numCPU pol adds trees workers s s') (hK : slotCount adds ≤ c.L.K) (hN : c.N.Lawful)
    (hroots : s'.roots ≠ []) (w : World) {query : List c.N.V} (hq : GoodQuery c query) {k b : Int}
    (hb : 0 < if b = -1 then k * s'.roots.length else b) {fuel : Nat} {ctx ctx' : Ctx c} {ids : List Nat} {ds : List c.N.V}
    (hr : s'.getNnsByVector fuel w query k b ctx = .ok (ids, ds, ctx')) :
    TopK c.N c.D.normalizedDistance (itemDist c (lastAdded adds) query) (addedIds adds) k.toNat ids ds := by
  obtain ⟨ts, S, C, -, -, R⟩ := h.searchable_complete (Or.inl hK) w
  obtain ⟨N0, B, _⟩ := h.built
  have hleaf : ∀ t ∈ ts, t.leaves = [t] := by
    intro t ht
    have hR := R t ht
    rw [B.nItems] at hR
    cases t with
    | item i => exact hR.elim
    | hole i => exact hR.elim
    | bucket i l => rfl
    | split i l r => have := hR.2.2.2.1; omega
  have e : ts.flatMap Tree.leaves = ts := by
    clear S C R
    induction ts with
    | nil => rfl
    | cons t ts ih => rw [List.flatMap_cons, hleaf t (by simp), ih fun u hu => hleaf u (by simp [hu])]; rfl
  obtain ⟨done, rest, d1, d2, -, d4⟩ := Search.answer h.wf hN S hq hr
  rw [e] at d1
  have hdone : done ≠ [] := by
    rintro rfl
    rcases d2 with rfl | d2
    · have := d1.length_eq
      rw [List.length_eq_zero_iff.1 this.symm] at S
      exact hroots S.roots.symm
    · simp at d2
      omega
  obtain ⟨t, done, rfl⟩ := List.exists_cons_of_ne_nil hdone
  have ht : t ∈ ts := d1.subset (by simp)
  rw [B.nItems] at d4
  refine d4.of_perm (addedIds_among fun i hi => ?_)
  rw [List.flatMap_cons]
  exact List.mem_append_left _ (C t ht i (mem_addedIds.1 hi))

/-- **C125** for loaded indexes: the same, if there are two trees or more, or if the copies of the roots are complete. -/
theorem Session.C125_small_loaded (h : Session c numCPU pol adds trees workers s s') (hK : slotCount adds ≤ c.L.K) (hN : c.N.Lawful)
    (h0 : c.N.Ordinary c.D.pqInitialValue) (hn : 2 ≤ slotCount adds) (hroots : s'.roots ≠ [])
    (h2 : 2 ≤ s'.roots.length ∨ c.L.CopiesKept (slotCount adds)) (hk : c.L.CountKept (slotCount adds)) {w : World} {path : String}
    (hf : FileOf s' w path) {bk : Backend} {u t : Idx c} (hl : u.load bk w path = .ok (.nil, t)) {query : List c.N.V}
    (hq : GoodQuery c query) {k b : Int} (hb : 0 < if b = -1 then k * t.roots.length else b) {fuel : Nat} {ctx ctx' : Ctx c}
    {ids : List Nat} {ds : List c.N.V} (hr : t.getNnsByVector fuel w query k b ctx = .ok (ids, ds, ctx')) :
    TopK c.N c.D.normalizedDistance (itemDist c (lastAdded adds) query) (addedIds adds) k.toNat ids ds := by
  obtain ⟨t', l1, N0, B, _, R⟩ := h.reload hn hroots hk hf bk u
  rw [hl] at l1
  cases l1
  obtain ⟨e0, e1, e2⟩ := h.small hK hk B
  have hrl := List.length_pos_iff.2 hroots
  have hNN := B.nNodes
  obtain ⟨ts, S, -⟩ := R.searchable h.wf B hk
  obtain ⟨done, rest, -, -, d3, d4⟩ := Search.answer h.wf hN S hq hr
  rw [R.nItems] at d3 d4
  refine d4.of_perm (addedIds_among fun i hi => ?_)
  -- the smallest root
  obtain ⟨j, j1, j2, j3, -, j5⟩ := R.roots_or
  have hj : j + 1 = slotCount adds := by
    by_contra hne
    exact j3 (e1 j (by omega) (by omega))
  obtain ⟨r, r1, r2, r3, r4⟩ : ∃ r, r ∈ t.roots ∧ (∀ x ∈ t.roots, r ≤ x) ∧ slotCount adds ≤ r ∧ r < s'.nNodes ∧
      ∀ i ∈ addedIds adds, i ∈ childrenAt c.L s'.alloc.data r := by
    rcases j5 with j5 | ⟨j5, -⟩
    · refine ⟨j + 1, ?_, fun x hx => ?_, by omega, by omega, e2 _ (by omega) (by omega)⟩
      · rw [j5, List.mem_reverse, List.mem_range'_1]; omega
      · rw [j5, List.mem_reverse, List.mem_range'_1] at hx; omega
    · refine ⟨j + 2, ?_, fun x hx => ?_, by omega, by omega, ?_⟩
      · rw [j5, List.mem_reverse, List.mem_range'_1]; omega
      · rw [j5, List.mem_reverse, List.mem_range'_1] at hx; omega
      · by_cases hlt : j + 2 < N0
        · exact e2 _ (by omega) hlt
        · have hck : c.L.CopiesKept (slotCount adds) := by
            rcases h2 with h2 | h2
            · omega
            · exact h2
          intro i hi
          have hx : j + 2 ∈ t.roots := by rw [j5, List.mem_reverse, List.mem_range'_1]; omega
          obtain ⟨tr, g1, g2⟩ := R.forest h.wf B hk (Or.inr hK) hck (j + 2) hx
          cases tr with
          | item i => exact g2.elim
          | hole i => exact g2.elim
          | bucket y l =>
            obtain ⟨_, _, _, g4, l', g5, g6⟩ := g2
            obtain rfl : y = j + 2 := g1
            rw [g4, g6]
            exact List.mem_append_left _ (g5.symm.subset hi)
          | split y l r => have := g2.2.2.2.1; omega
  have hm : (t.mem w).get = s'.alloc.data := by rw [R.mem]
  have hpre := Search.first_bucket hN h0 d3 hb r1 r2 (R.getNode B r4.1) r3 (by rw [hm, e1 r r3 r4.1]; exact hK)
  rw [hm] at hpre
  exact hpre.subset (r4.2 i hi)

/-- **C125**, room: fresh contexts of loaded small indexes are large enough for every search (for built ones see `C22_buckets_partial`). -/
theorem Session.C125_room_loaded (h : Session c numCPU pol adds trees workers s s') (hK : slotCount adds ≤ c.L.K) (hN : c.N.Lawful)
    (hn : 2 ≤ slotCount adds) (hroots : s'.roots ≠ []) (hk : c.L.CountKept (slotCount adds)) {w : World} {path : String}
    (hf : FileOf s' w path) {bk : Backend} {u t : Idx c} (hl : u.load bk w path = .ok (.nil, t)) {query : List c.N.V}
    (hq : GoodQuery c query) (k b : Int) {fuel : Nat} (hfuel : t.roots.length < fuel) :
    ∃ x, t.getNnsByVector fuel w query k b t.createContext = .ok x := by
  obtain ⟨t', l1, N0, B, _, R⟩ := h.reload hn hroots hk hf bk u
  rw [hl] at l1
  cases l1
  obtain ⟨e0, e1, -⟩ := h.small hK hk B
  have hrl := List.length_pos_iff.2 hroots
  have hNN := B.nNodes
  obtain ⟨ts, S, -⟩ := R.searchable h.wf B hk
  have hm : (t.mem w).get = s'.alloc.data := by rw [R.mem]
  -- every tree is one bucket with as many entries as there are slots
  have hb : ∀ tr ∈ ts, tr.items.length = slotCount adds ∧ tr.size = 1 := by
    intro tr htr
    have hx : tr.root ∈ t.roots := by rw [← S.roots]; exact List.mem_map_of_mem htr
    obtain ⟨r1, r2, r3⟩ := R.roots_mem hx
    have hh := (S.walk tr htr).holds
    rw [hm, R.nItems] at hh
    cases tr with
    | item i => exact absurd hh.1 (by show ¬ i < _; exact not_lt.2 r1)
    | hole i => have : ndAt c.L s'.alloc.data i = 0 := hh; have : ndAt c.L s'.alloc.data i = _ := r3; omega
    | bucket i ids =>
      refine ⟨?_, rfl⟩
      show ids.length = _
      rw [← hh.2.2, ← r3]
      simp [childrenAt, Node.getChildren]
      rfl
    | split i l r => have := hh.1; have : ndAt c.L s'.alloc.data i = _ := r3; omega
  have hsum : ∀ us : List Tree, (∀ tr ∈ us, tr.items.length = slotCount adds ∧ tr.size = 1) →
      (us.flatMap Tree.items).length = us.length * slotCount adds ∧ Tree.sizes us = us.length := by
    intro us
    induction us with
    | nil => intro _; exact ⟨by simp, rfl⟩
    | cons a us ih =>
      intro hu
      obtain ⟨i1, i2⟩ := ih fun x hx => hu x (by simp [hx])
      obtain ⟨a1, a2⟩ := hu a (by simp)
      refine ⟨?_, ?_⟩
      · rw [List.flatMap_cons, List.length_append, i1, a1, List.length_cons]; ring
      · unfold Tree.sizes at i2 ⊢
        rw [List.map_cons, List.sum_cons, i2, a2, List.length_cons]; omega
  obtain ⟨q1, q2⟩ := hsum ts hb
  have hlen : ts.length = t.roots.length := by rw [← S.roots, List.length_map]
  rcases Search.outcome h.wf hN S hq k b (fuel := fuel) (by omega) t.createContext with h1 | ⟨h1, -⟩
  · exact h1
  · exfalso
    have hrn : t.roots.length ≤ s'.nNodes - slotCount adds := by
      obtain ⟨j, j1, j2, -, -, j5⟩ := R.roots_or
      rcases j5 with j5 | ⟨j5, -⟩ <;> rw [j5, List.length_reverse, List.length_range'] <;> omega
    have hcnt := countNNS_sum B.memOK B.le_size B.nns
    have hget : s'.bmem.get = s'.alloc.data := by
      rw [(B.mem_eq w (by omega)).2]
      rfl
    rw [hget] at hcnt
    have hsplit : List.range s'.nNodes = List.range (slotCount adds) ++ List.range' (slotCount adds) (s'.nNodes - slotCount adds) := by
      rw [List.range_eq_range', List.range_eq_range']
      have := List.range'_append_1 (s := 0) (m := slotCount adds) (n := s'.nNodes - slotCount adds)
      rw [Nat.zero_add] at this
      rw [this]
      congr 1
      omega
    have htail : ((List.range' (slotCount adds) (s'.nNodes - slotCount adds)).map (nnsWeight c.L s'.alloc.data (slotCount adds))).sum =
        (s'.nNodes - slotCount adds) * slotCount adds := by
      rw [List.map_congr_left (g := fun _ => slotCount adds)]
      · simp
      · intro x hx
        rw [List.mem_range'_1] at hx
        unfold nnsWeight
        rw [e1 x hx.1 (by omega), if_neg (by omega), if_pos hK]
    have hhead : 1 ≤ ((List.range (slotCount adds)).map (nnsWeight c.L s'.alloc.data (slotCount adds))).sum := by
      obtain ⟨v, hv⟩ := Option.isSome_iff_exists.1 (B.top (by omega))
      have hw1 : nnsWeight c.L s'.alloc.data (slotCount adds) (slotCount adds - 1) = 1 := by
        unfold nnsWeight
        rw [if_pos ⟨(B.items _ v hv).nDesc, by omega⟩]
      have : nnsWeight c.L s'.alloc.data (slotCount adds) (slotCount adds - 1) ∈
          (List.range (slotCount adds)).map (nnsWeight c.L s'.alloc.data (slotCount adds)) :=
        List.mem_map_of_mem (List.mem_range.2 (by omega))
      have := List.single_le_sum (by simp) _ this
      omega
    rw [hsplit, List.map_append, List.sum_append, htail] at hcnt
    have hle : t.roots.length * slotCount adds ≤ (s'.nNodes - slotCount adds) * slotCount adds := Nat.mul_le_mul_right _ hrn
    have hpos : 1 ≤ (s'.nNodes - slotCount adds) * slotCount adds := Nat.mul_pos (by omega) (by omega)
    rw [q1, hlen] at h1
    unfold Idx.createContext at h1
    rw [R.nns] at h1
    simp only [List.length_replicate] at h1
    rw [if_neg (by omega)] at h1
    omega

/-- **C70 with at most `K` slots**: no condition on the lengths of vectors, and every positive budget, in particular `searchK = -1`. -/
theorem Session.C70_small_partial (h : Session c numCPU pol adds trees workers s s') (hK : slotCount adds ≤ c.L.K) (hN : c.N.Lawful)
    (hroots : s'.roots ≠ []) (w : World) {i : Nat} {v : List c.N.V} (hv : lastAdded adds i = some v) (hm : MarginOk c v) {k b : Int}
    (hk1 : 1 ≤ k) (hb : b = -1 ∨ 0 < b) {fuel : Nat} {ctx ctx' : Ctx c} {ids : List Nat} {ds : List c.N.V}
    (hord : ∀ j ∈ addedIds adds, c.N.Ordinary (itemDist c (lastAdded adds) v j))
    (hnear : ∀ j ∈ addedIds adds, j ≠ i → PairLt c.N (itemDist c (lastAdded adds) v i, i) (itemDist c (lastAdded adds) v j, j))
    (hr : s'.getNnsByItem fuel w i k b ctx = .ok (ids, ds, ctx')) : ids.head? = some i := by
  obtain ⟨N0, B, _⟩ := h.built
  rw [C24_by_item, B.getItem w hv] at hr
  have hlen : v.length = c.L.f := (B.items i v hv).vec ▸ by simp [Node.vec]
  have hi : i ∈ addedIds adds := mem_liveOf.2 ⟨B.bound i v hv, by rw [hv]; rfl⟩
  have hrl : 0 < s'.roots.length := List.length_pos_iff.2 hroots
  have hb' : 0 < if b = -1 then k * s'.roots.length else b := by
    split
    · exact Int.mul_pos (by omega) (by omega)
    · omega
  exact (h.C125_small hK hN hroots w ⟨hlen, hm⟩ hb' hr).head_of_nearest hN (by omega) hi hord hnear

end

/-! ### the program of the README -/

/-- The vectors of the README, and its query. -/
def readmeAdds : List (Nat × List ieee32.V) :=
  [(0, [x32 0, x32 0, x32 0x3f800000]), (1, [x32 0, x32 0x3f800000, x32 0]), (2, [x32 0x3f800000, x32 0, x32 0])]

def readmeQuery : List ieee32.V := [x32 0x40400000, x32 0x40000000, x32 0x3f800000]

section
variable {R : Rng} {sI : List Nat → List Nat} {sP : List (ieee32.V × Nat) → List (ieee32.V × Nat)} {numCPU : Nat}

theorem itemDist_some {c : Cfg} {m : Nat → Option (List c.N.V)} {q v : List c.N.V} {i : Nat} (h : m i = some v) :
    itemDist c m q i = vecDist c q v := by
  unfold itemDist
  rw [h]

theorem itemDist_none {c : Cfg} {m : Nat → Option (List c.N.V)} {q : List c.N.V} {i : Nat} (h : m i = none) :
    itemDist c m q i = c.N.zero := by
  unfold itemDist
  rw [h]

/-- The right answer to the query of the README. -/
theorem readme_topK (ds : List ieee32.V) (hds : ds = [2, 1, 0].map fun i => (angular32 4 3).D.normalizedDistance
      (itemDist (angular32 4 3) (lastAdded readmeAdds) readmeQuery i)) :
    TopK ieee32 (angular32 4 3).D.normalizedDistance (itemDist (angular32 4 3) (lastAdded readmeAdds) readmeQuery) (addedIds readmeAdds) 3
      [2, 1, 0] ds := by
  have e : addedIds readmeAdds = [0, 1, 2] := by decide +kernel
  rw [e]
  refine ⟨by decide, by decide, by decide, hds, fun _ => ?_, fun _ i _ j hj hn => absurd ?_ hn⟩
  · have h21 : ieee32.lt (itemDist (angular32 4 3) (lastAdded readmeAdds) readmeQuery 2)
      (itemDist (angular32 4 3) (lastAdded readmeAdds) readmeQuery 1) = true := by decide +kernel
    have h10 : ieee32.lt (itemDist (angular32 4 3) (lastAdded readmeAdds) readmeQuery 1)
      (itemDist (angular32 4 3) (lastAdded readmeAdds) readmeQuery 0) = true := by decide +kernel
    have h20 : ieee32.lt (itemDist (angular32 4 3) (lastAdded readmeAdds) readmeQuery 2)
      (itemDist (angular32 4 3) (lastAdded readmeAdds) readmeQuery 0) = true := by decide +kernel
    simp only [List.map_cons, List.map_nil, List.pairwise_cons, List.mem_cons, List.not_mem_nil, or_false, forall_eq_or_imp, forall_eq]
    exact ⟨⟨Or.inl h21, Or.inl h20⟩, Or.inl h10, by simp, List.Pairwise.nil⟩
  · revert hj
    simp only [List.mem_cons, List.not_mem_nil, or_false]
    omega

/-- **C126, what holds of it** with vectors of the declared length (3): for every generator, number of processors, interleaving of the workers
and also for other numbers of trees (at least two), the index of the README answers the query of the README with 2, 1, 0; so does the index
that is loaded from its file.  (Missing: the program as it is printed, see `C126_readme_refuted`.) -/
theorem C126_readme_partial {pol : BuildPolicy} {trees workers : Int} (h2 : 2 ≤ trees) (hw : pol = .multi → workers ≠ 0)
    {s s' : Idx (angularCfg ieee32 (bvCodec 4) R sI sP 4 3)}
    (h : Session (angularCfg ieee32 (bvCodec 4) R sI sP 4 3) numCPU pol readmeAdds trees workers s s') (w : World) :
    (∃ F, ∀ fuel, F < fuel → ∃ ds o, s'.getNnsByVector fuel w readmeQuery 3 (-1) s'.createContext = .ok ([2, 1, 0], ds, o)) ∧
    ∀ path, FileOf s' w path → ∀ bk (u : Idx (angularCfg ieee32 (bvCodec 4) R sI sP 4 3)), ∃ t, u.load bk w path = .ok (.nil, t) ∧
      ∃ F, ∀ fuel, F < fuel → ∃ ds o, t.getNnsByVector fuel w readmeQuery 3 (-1) t.createContext = .ok ([2, 1, 0], ds, o) := by
  have hsc : slotCount readmeAdds = 3 := by decide +kernel
  have hK : slotCount readmeAdds ≤ (angularCfg ieee32 (bvCodec 4) R sI sP 4 3).L.K := by
    show slotCount readmeAdds ≤ (angular32 4 3).L.K
    decide +kernel
  have hk : (angularCfg ieee32 (bvCodec 4) R sI sP 4 3).L.CountKept (slotCount readmeAdds) := by
    rw [hsc]
    show 3 < 2 ^ (8 * 3)
    decide
  have hn2 : 2 ≤ slotCount readmeAdds := by rw [hsc]; decide
  have hl : s'.roots.length = trees.toNat := (C10_tree_count h hw).1 (by omega)
  have hroots : s'.roots ≠ [] := by
    intro e
    rw [e] at hl
    simp at hl
    omega
  have hq : GoodQuery (angularCfg ieee32 (bvCodec 4) R sI sP 4 3) readmeQuery := ⟨rfl, angular_marginOk rfl (by decide)⟩
  have ho : ∀ i ∈ addedIds readmeAdds, ieee32.Ordinary (itemDist (angular32 4 3) (lastAdded readmeAdds) readmeQuery i) := by
    have e : addedIds readmeAdds = [0, 1, 2] := by decide +kernel
    intro i hi
    rw [e] at hi
    simp only [List.mem_cons, List.not_mem_nil, or_false] at hi
    rcases hi with rfl | rfl | rfl
    · exact (by decide +kernel : ieee32.eq (itemDist (angular32 4 3) (lastAdded readmeAdds) readmeQuery 0)
        (itemDist (angular32 4 3) (lastAdded readmeAdds) readmeQuery 0) = true)
    · exact (by decide +kernel : ieee32.eq (itemDist (angular32 4 3) (lastAdded readmeAdds) readmeQuery 1)
        (itemDist (angular32 4 3) (lastAdded readmeAdds) readmeQuery 1) = true)
    · exact (by decide +kernel : ieee32.eq (itemDist (angular32 4 3) (lastAdded readmeAdds) readmeQuery 2)
        (itemDist (angular32 4 3) (lastAdded readmeAdds) readmeQuery 2) = true)
  have hd : ∀ i, itemDist (angularCfg ieee32 (bvCodec 4) R sI sP 4 3) (lastAdded readmeAdds) readmeQuery i =
      itemDist (angular32 4 3) (lastAdded readmeAdds) readmeQuery i := by
    intro i
    cases e : lastAdded readmeAdds i with
    | none => exact (itemDist_none (c := angularCfg ieee32 (bvCodec 4) R sI sP 4 3) e).trans (itemDist_none (c := angular32 4 3) e).symm
    | some v =>
      refine (itemDist_some (c := angularCfg ieee32 (bvCodec 4) R sI sP 4 3) e).trans (Eq.trans ?_ (itemDist_some (c := angular32 4 3) e).symm)
      rfl
  have key : ∀ {ids : List Nat} {ds : List ieee32.V}, TopK ieee32 (angular32 4 3).D.normalizedDistance
      (itemDist (angularCfg ieee32 (bvCodec 4) R sI sP 4 3) (lastAdded readmeAdds) readmeQuery) (addedIds readmeAdds) 3 ids ds →
      ids = [2, 1, 0] := by
    intro ids ds ht
    rw [funext hd] at ht
    exact (ht.unique ieee32_lawful (readme_topK _ rfl) (List.Perm.refl _) ho).1
  refine ⟨⟨2 * (s'.nNodes - s'.nItems), fun fuel hf => ?_⟩, fun path hfile bk u => ?_⟩
  · obtain ⟨⟨ids, ds, o⟩, hx⟩ := C22_buckets_partial h hK (List.cons_ne_nil _ _) ieee32_lawful w hq 3 (-1) hf
    have := h.C125_small hK ieee32_lawful hroots w hq (by rw [if_pos rfl, hl]; omega) hx
    obtain rfl := key this
    exact ⟨ds, o, hx⟩
  · obtain ⟨t, l1, N0, B, _, R⟩ := h.reload hn2 hroots hk hfile bk u
    refine ⟨t, l1, t.roots.length, fun fuel hf => ?_⟩
    obtain ⟨⟨ids, ds, o⟩, hx⟩ := h.C125_room_loaded hK ieee32_lawful hn2 hroots hk hfile l1 hq 3 (-1) hf
    have htr : 0 < t.roots.length := by
      have hNN := B.nNodes
      refine List.length_pos_of_mem (R.copies_found B (k := 0) (by omega))
    have := h.C125_small_loaded hK ieee32_lawful ieee32_keyLaws.inf_ordinary hn2 hroots (Or.inl (by omega)) hk hfile l1 hq
      (by rw [if_pos rfl]; omega) hx
    obtain rfl := key this
    exact ⟨ds, o, hx⟩

/-- **C126 as stated is false**: the README declares vectors of length 1536 and adds vectors of length 3; the first `AddItem` panics, whatever
the generator and the pre-allocation. -/
theorem C126_readme_refuted (r : R.σ) (hint : Nat) :
    ∃ msg, (Idx.new (angularCfg ieee32 (bvCodec 4) R sI sP 4 1536) r hint).addAll readmeAdds = .error (.panic msg) :=
  ⟨_, rfl⟩

end

/-- Sessions of the README exist, with as many workers as processors. -/
example : ∃ s s', Session (oracle32 3) 8 .multi readmeAdds 10 (-1) s s' ∧ slotCount readmeAdds ≤ (oracle32 3).L.K ∧ s'.roots ≠ [] ∧
    (oracle32 3).L.CountKept (slotCount readmeAdds) ∧ ¬ (oracle32 3).L.CopiesKept (slotCount readmeAdds) ∧ 2 ≤ s'.roots.length ∧
    GoodQuery (oracle32 3) readmeQuery ∧ (∃ w, FileOf s' w "test.ann") ∧
    ∀ w, ∃ fuel ds o, s'.getNnsByVector fuel w readmeQuery 3 (-1) s'.createContext = .ok ([2, 1, 0], ds, o) := by
  obtain ⟨s, s', h⟩ := multi_session (oracle32_wf (f := 3) (by decide)) (Conc.angular_total oracle_inRange (by decide))
    (Conc.angular_canBalance (by decide)) (fun _ => 0) readmeAdds (legalAdds_of (by decide +kernel)) 8 10 (-1) (W := 8) rfl (by decide +kernel)
  have hl : s'.roots.length = 10 := (C10_tree_count h (by decide)).1 (by decide)
  refine ⟨s, s', h, by decide +kernel, by intro e; rw [e] at hl; simp at hl, by unfold Layout.CountKept; decide +kernel,
    by unfold Layout.CopiesKept; decide +kernel, by omega, ⟨rfl, angular_marginOk rfl (by decide)⟩,
    ⟨_, h.fileOf.2 (oneFile_read "test.ann" _)⟩, fun w => ?_⟩
  obtain ⟨⟨F, hF⟩, -⟩ := C126_readme_partial (by decide) (by decide) h w
  exact ⟨F + 1, hF _ (Nat.lt_succ_self _)⟩

/-- C70 with few items: the hypotheses of `C70_small_partial` hold for item 2 of the README. -/
example : slotCount readmeAdds ≤ (oracle32 3).L.K ∧ lastAdded readmeAdds 2 = some [x32 0x3f800000, x32 0, x32 0] ∧
    MarginOk (oracle32 3) [x32 0x3f800000, x32 0, x32 0] ∧
    (∀ j ∈ addedIds readmeAdds, (oracle32 3).N.eq (itemDist (oracle32 3) (lastAdded readmeAdds) [x32 0x3f800000, x32 0, x32 0] j)
      (itemDist (oracle32 3) (lastAdded readmeAdds) [x32 0x3f800000, x32 0, x32 0] j) = true) ∧
    (∀ j ∈ addedIds readmeAdds, j ≠ 2 → PairLt (oracle32 3).N
      (itemDist (oracle32 3) (lastAdded readmeAdds) [x32 0x3f800000, x32 0, x32 0] 2, 2)
      (itemDist (oracle32 3) (lastAdded readmeAdds) [x32 0x3f800000, x32 0, x32 0] j, j)) :=
  ⟨by decide +kernel, by decide +kernel, angular_marginOk rfl (by decide), by decide +kernel, by decide +kernel⟩

end Annoy
