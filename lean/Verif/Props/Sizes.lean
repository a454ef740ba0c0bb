import Verif.Proof.Sizes
import Verif.Props.SaveLoadWitness
import Verif.Props.Finish
/-!
# C119: how large a built index gets

The nodes of an index are the item slots, the nodes of the trees and one copy of each root.  A file has `nodeSize` bytes per node.
-/
namespace Annoy

theorem sum_length_bounds {α β : Type} (f : α → List β) {lo hi : Nat} : ∀ {ts : List α}, (∀ t ∈ ts, lo ≤ (f t).length ∧ (f t).length ≤ hi) →
    ts.length * lo ≤ (ts.flatMap f).length ∧ (ts.flatMap f).length ≤ ts.length * hi
  | [], _ => by simp
  | t :: ts, h => by
    obtain ⟨h1, h2⟩ := h t (by simp)
    obtain ⟨h3, h4⟩ := sum_length_bounds f (ts := ts) fun u hu => h u (by simp [hu])
    simp only [List.flatMap_cons, List.length_append, List.length_cons, Nat.add_mul]
    omega

/-- Bounds for the nodes of a tree over `m` items in `n` slots. -/
theorem RootTree.bounds {L : Layout} {b : Bytes} {n : Nat} {live : List Nat} {t : Tree} (hK : 2 ≤ L.K) (h : RootTree L b n live t) :
    (n ≤ L.K ∨ live.length = 1 → 1 ≤ t.inner.length ∧ t.inner.length ≤ 1) ∧
    (L.K < n → 2 ≤ live.length → (2 * live.length - 1) / L.K ≤ t.inner.length ∧ t.inner.length ≤ live.length - 1) := by
  obtain ⟨h1, h2, -⟩ := h.sizes hK
  refine ⟨fun q => by have := h1 q; omega, fun q1 q2 => ?_⟩
  obtain ⟨h3, h4⟩ := h2 q1 q2
  refine ⟨Nat.lt_succ_iff.1 ((Nat.div_lt_iff_lt_mul (by omega)).2 ?_), by omega⟩
  rw [Nat.mul_comm _ L.K]
  show _ < L.K * (t.inner.length + 1)
  omega

namespace Session
variable {c : Cfg} {numCPU : Nat} {pol : BuildPolicy} {adds : List (Nat × List c.N.V)} {trees workers : Int} {s s' : Idx c}

theorem nodeCount (h : Session c numCPU pol adds trees workers s s')
    (hk : SplitsKept c numCPU pol (slotCount adds) trees workers) {lo hi : Nat}
    (hb : ∀ b t, RootTree c.L b (slotCount adds) (addedIds adds) t → lo ≤ t.inner.length ∧ t.inner.length ≤ hi) :
    slotCount adds + s'.roots.length * (lo + 1) ≤ s'.nNodes ∧ s'.nNodes ≤ slotCount adds + s'.roots.length * (hi + 1) := by
  obtain ⟨N0, B, ts, h1, h2, h3⟩ := h.forest hk
  have h4 := sum_length_bounds Tree.inner (ts := ts) fun t ht => hb _ t (h2 t ht)
  have h5 := h3.length_eq
  rw [List.length_range'] at h5
  have h6 : ts.length = s'.roots.length := by rw [← h1, List.length_map]
  rw [h5, h6] at h4
  have := B.n_le
  rw [B.nNodes]
  simp only [Nat.mul_add, Nat.mul_one]
  omega

/-- **C119**: how many nodes a built index has.  With `n` item slots, `m` items, `T` trees and buckets of at most `K` items: if all slots fit into one bucket, or
there is just one item, a tree is one node (and each root has a copy).  Otherwise a tree over `m` items takes, with the copy of its root, at least `2m/K` nodes and at most `m`. -/
theorem C119_nodes (h : Session c numCPU pol adds trees workers s s')
    (hk : SplitsKept c numCPU pol (slotCount adds) trees workers) :
    (slotCount adds ≤ c.L.K ∨ (addedIds adds).length = 1 → s'.nNodes = slotCount adds + 2 * s'.roots.length) ∧
    (c.L.K < slotCount adds → 2 ≤ (addedIds adds).length →
      s'.nNodes ≤ slotCount adds + s'.roots.length * (addedIds adds).length ∧
      2 * (s'.roots.length * (addedIds adds).length) ≤ c.L.K * (s'.nNodes - slotCount adds)) := by
  have hK : 2 ≤ c.L.K := by have := h.wf.layout.K_ge; omega
  refine ⟨fun q => ?_, fun q1 q2 => ?_⟩
  · obtain ⟨h1, h2⟩ := h.nodeCount hk fun b t ht => (ht.bounds hK).1 q
    omega
  · obtain ⟨h1, h2⟩ := h.nodeCount hk fun b t ht => (ht.bounds hK).2 q1 q2
    rw [Nat.sub_add_cancel (by omega)] at h2
    refine ⟨h2, ?_⟩
    generalize (addedIds adds).length = m at *
    have h3 : s'.roots.length * ((2 * m - 1) / c.L.K + 1) ≤ s'.nNodes - slotCount adds := by omega
    have h4 : 2 * m ≤ c.L.K * ((2 * m - 1) / c.L.K + 1) := by
      have := Nat.lt_mul_div_succ (2 * m - 1) (show 0 < c.L.K by omega)
      omega
    calc 2 * (s'.roots.length * m) = s'.roots.length * (2 * m) := by ring
      _ ≤ s'.roots.length * (c.L.K * ((2 * m - 1) / c.L.K + 1)) := Nat.mul_le_mul_left _ h4
      _ = c.L.K * (s'.roots.length * ((2 * m - 1) / c.L.K + 1)) := by ring
      _ ≤ _ := Nat.mul_le_mul_left _ h3

/-- **C119**, files: `Save` writes at most `n + 2T` nodes, or `n + T * m`, of `nodeSize` bytes. -/
theorem C119_file (h : Session c numCPU pol adds trees workers s s')
    (hk : SplitsKept c numCPU pol (slotCount adds) trees workers) (w : World) :
    ∃ bytes, s'.saveBytes w = .ok (some bytes) ∧ bytes.length = s'.nNodes * c.L.nodeSize ∧
      bytes.length ≤ (slotCount adds + s'.roots.length * max 2 (addedIds adds).length) * c.L.nodeSize := by
  obtain ⟨N0, B, _⟩ := h.built
  obtain ⟨bytes, inner, h1, h2, -⟩ := C56_file_layout h w
  have h4 := B.saveBytes h.wf (w := w)
  have h5 : bytes.length = s'.nNodes * c.L.nodeSize := by
    rw [h4] at h1
    injection h1 with h1
    injection h1 with h1
    rw [← h1]
    simp [Block.prefix]
  refine ⟨bytes, h1, h5, ?_⟩
  rw [h5]
  apply Nat.mul_le_mul_right
  obtain ⟨q1, q2⟩ := h.C119_nodes hk
  have e1 : s'.roots.length * 2 ≤ s'.roots.length * max 2 (addedIds adds).length := Nat.mul_le_mul_left _ (le_max_left _ _)
  have e2 : s'.roots.length * (addedIds adds).length ≤ s'.roots.length * max 2 (addedIds adds).length := Nat.mul_le_mul_left _ (le_max_right _ _)
  by_cases hn : slotCount adds ≤ c.L.K
  · have := q1 (Or.inl hn); omega
  · by_cases hm : (addedIds adds).length = 1
    · have := q1 (Or.inr hm); omega
    · have : (addedIds adds).length ≠ 0 := by
        intro e
        have := B.top (by omega)
        have := mem_addedIds.2 this
        rw [List.length_eq_zero_iff.1 e] at this
        cases this
      have := q2 (by omega) (by omega)
      omega

/-- **C119**, `Build(-1)` with one worker.  If all slots fit into one bucket, or there is just one item, it makes as many trees as there are slots.  Otherwise it makes at least
two, and no more than needed to double the number of nodes with trees of the smallest size; if all slots are used, at most `K`.  All in all there are
less than `2n + m` nodes, root copies not counted. -/
theorem C119_auto (h : Session c numCPU .single adds (-1) workers s s')
    (hk : SplitsKept c numCPU .single (slotCount adds) (-1) workers) :
    (slotCount adds ≤ c.L.K ∨ (addedIds adds).length = 1 → s'.roots.length = slotCount adds) ∧
    (c.L.K < slotCount adds → 2 ≤ (addedIds adds).length →
      2 ≤ s'.roots.length ∧
      (s'.roots.length - 1) * (2 * (addedIds adds).length - c.L.K) ≤ c.L.K * (slotCount adds - 1) ∧
      (Dense adds → s'.roots.length ≤ c.L.K) ∧
      s'.nNodes + 2 ≤ 2 * slotCount adds + (addedIds adds).length + s'.roots.length) := by
  have hK : 2 ≤ c.L.K := by have := h.wf.layout.K_ge; omega
  obtain ⟨N0, B, hN, -, h2n⟩ := h.built
  have h2n := h2n rfl (by simp)
  have hBn := B.nNodes
  have hd : c.L.Deep (s'.nNodes - s'.roots.length) ∨ slotCount adds ≤ c.L.K :=
    hk.symm.imp (fun q => q.mono (by omega)) id
  have key : ∀ lo hi, (∀ b t, RootTree c.L b (slotCount adds) (addedIds adds) t → lo ≤ t.inner.length ∧ t.inner.length ≤ hi) →
      s'.roots ≠ [] → slotCount adds + (s'.roots.length - 1) * lo < 2 * slotCount adds ∧
        s'.nNodes < 2 * slotCount adds + hi + s'.roots.length := by
    intro lo hi hb hne
    obtain ⟨h1, h2, h3, _⟩ := h.start
    have hf := h.fits
    cases h.builds with
    | single rf tf lf hbu => exact Idx.build_auto h.wf h1 h2 h3 rf tf lf hf hbu lo hi hb hd hne
  have hone : s'.roots ≠ [] ↔ 1 ≤ s'.roots.length := by rw [Nat.one_le_iff_ne_zero, ne_eq, ne_eq, List.length_eq_zero_iff]
  refine ⟨fun q => ?_, fun q1 q2 => ?_⟩
  · have hb : ∀ b t, RootTree c.L b (slotCount adds) (addedIds adds) t → 1 ≤ t.inner.length ∧ t.inner.length ≤ 1 :=
      fun b t ht => (ht.bounds hK).1 q
    obtain ⟨h1, h2⟩ := h.nodeCount hk hb
    by_cases hne : s'.roots = []
    · rw [hne] at hBn h2 ⊢
      simp only [List.length_nil] at *
      omega
    · have := key 1 1 hb hne
      have := hone.1 hne
      omega
  · have hb : ∀ b t, RootTree c.L b (slotCount adds) (addedIds adds) t →
        (2 * (addedIds adds).length - 1) / c.L.K ≤ t.inner.length ∧ t.inner.length ≤ (addedIds adds).length - 1 :=
      fun b t ht => (ht.bounds hK).2 q1 q2
    obtain ⟨h1, h2⟩ := h.nodeCount hk hb
    have hm : (addedIds adds).length ≤ slotCount adds := liveOf_length_le _ _
    rw [Nat.sub_add_cancel (by omega)] at h2
    have hT : 2 ≤ s'.roots.length := by
      by_contra hc
      have h3 : s'.roots.length = 0 ∨ s'.roots.length = 1 := by omega
      rcases h3 with h3 | h3 <;> rw [h3] at h2 hBn <;> omega
    obtain ⟨k1, k2⟩ := key _ _ hb (hone.2 (by omega))
    have hmul : (s'.roots.length - 1) * (2 * (addedIds adds).length - c.L.K) ≤ c.L.K * (slotCount adds - 1) := by
      generalize (addedIds adds).length = m at *
      have e1 : 2 * m - c.L.K ≤ c.L.K * ((2 * m - 1) / c.L.K) := by
        have := Nat.lt_mul_div_succ (2 * m - 1) (show 0 < c.L.K by omega)
        rw [Nat.mul_add] at this
        omega
      calc _ ≤ (s'.roots.length - 1) * (c.L.K * ((2 * m - 1) / c.L.K)) := Nat.mul_le_mul_left _ e1
        _ = c.L.K * ((s'.roots.length - 1) * ((2 * m - 1) / c.L.K)) := by ring
        _ ≤ _ := Nat.mul_le_mul_left _ (by omega)
    refine ⟨hT, hmul, fun hD => ?_, by omega⟩
    rw [hD.addedIds, List.length_range] at hmul
    by_contra hc
    have e1 : c.L.K * (2 * slotCount adds - c.L.K) ≤ (s'.roots.length - 1) * (2 * slotCount adds - c.L.K) :=
      Nat.mul_le_mul_right _ (by omega)
    have e2 : c.L.K * slotCount adds ≤ c.L.K * (2 * slotCount adds - c.L.K) := Nat.mul_le_mul_left _ (by omega)
    have e3 : c.L.K * (slotCount adds - 1) < c.L.K * slotCount adds := Nat.mul_lt_mul_of_pos_left (by omega) (by omega)
    omega

/-- **C119**, `Build(-1)` with `W` workers, any schedule.  Root copies not counted, there are at least `2n` nodes and at most `2n` plus a tree of `2m - 1` nodes for each worker.
If all slots fit into one bucket, or there is just one item, there are at least as many trees as slots; otherwise at least two, and if all slots are used
at most `K * (2W + 1)`. -/
theorem C119_auto_multi (h : Session c numCPU .multi adds (-1) workers s s')
    (hk : SplitsKept c numCPU .multi (slotCount adds) (-1) workers) {W : Nat}
    (hW : numWorkers numCPU workers = some W) (hW0 : 0 < W) :
    2 * slotCount adds + s'.roots.length ≤ s'.nNodes ∧
    s'.nNodes ≤ 2 * slotCount adds + W * max 1 (2 * (addedIds adds).length - 1) + s'.roots.length ∧
    (slotCount adds ≤ c.L.K ∨ (addedIds adds).length = 1 →
      slotCount adds ≤ s'.roots.length ∧
      s'.roots.length ≤ slotCount adds + W * max 1 (2 * (addedIds adds).length - 1)) ∧
    (c.L.K < slotCount adds → 2 ≤ (addedIds adds).length →
      2 ≤ s'.roots.length ∧
      s'.roots.length * (2 * (addedIds adds).length - c.L.K) ≤
        c.L.K * (slotCount adds + W * (2 * (addedIds adds).length - 1)) ∧
      (Dense adds → s'.roots.length ≤ c.L.K * (2 * W + 1))) := by
  have hK : 2 ≤ c.L.K := by have := h.wf.layout.K_ge; omega
  obtain ⟨N0, B, hN, -, h2n⟩ := h.built
  have hw0 : workers ≠ 0 := by
    rintro rfl
    unfold numWorkers at hW
    simp at hW
    omega
  have h2n := h2n rfl fun _ => hw0
  have hBn := B.nNodes
  have hroom : s'.nNodes ≤ 2 * slotCount adds + W * max 1 (2 * (addedIds adds).length - 1) + s'.roots.length := by
    obtain ⟨h1, h2, h3, _⟩ := h.start
    have hf := h.fits
    cases h.builds with
    | @multi _ _ W' hW' hb =>
      rw [hW] at hW'
      injection hW' with e
      subst e
      unfold treeRoom at hf
      rw [hW] at hf
      exact Conc.buildsMulti_room h.wf h1 h2 h3 (-1) W hf hb
  refine ⟨by omega, hroom, fun q => ?_, fun q1 q2 => ?_⟩
  · have hb : ∀ b t, RootTree c.L b (slotCount adds) (addedIds adds) t → 1 ≤ t.inner.length ∧ t.inner.length ≤ 1 :=
      fun b t ht => (ht.bounds hK).1 q
    obtain ⟨h1, h2⟩ := h.nodeCount hk hb
    omega
  · have hb : ∀ b t, RootTree c.L b (slotCount adds) (addedIds adds) t →
        (2 * (addedIds adds).length - 1) / c.L.K ≤ t.inner.length ∧ t.inner.length ≤ (addedIds adds).length - 1 :=
      fun b t ht => (ht.bounds hK).2 q1 q2
    obtain ⟨h1, h2⟩ := h.nodeCount hk hb
    have hm : (addedIds adds).length ≤ slotCount adds := liveOf_length_le _ _
    rw [Nat.sub_add_cancel (by omega)] at h2
    have hT : 2 ≤ s'.roots.length := by
      by_contra hc
      have h3 : s'.roots.length = 0 ∨ s'.roots.length = 1 := by omega
      rcases h3 with h3 | h3 <;> rw [h3] at h2 hBn <;> omega
    rw [max_eq_right (by omega)] at hroom
    have hmul : s'.roots.length * (2 * (addedIds adds).length - c.L.K) ≤
        c.L.K * (slotCount adds + W * (2 * (addedIds adds).length - 1)) := by
      generalize (addedIds adds).length = m at *
      have e1 : 2 * m - c.L.K ≤ c.L.K * ((2 * m - 1) / c.L.K) := by
        have := Nat.lt_mul_div_succ (2 * m - 1) (show 0 < c.L.K by omega)
        rw [Nat.mul_add] at this
        omega
      calc _ ≤ s'.roots.length * (c.L.K * ((2 * m - 1) / c.L.K)) := Nat.mul_le_mul_left _ e1
        _ = c.L.K * (s'.roots.length * ((2 * m - 1) / c.L.K)) := by ring
        _ ≤ _ := Nat.mul_le_mul_left _ (by rw [Nat.mul_add] at h1; omega)
    refine ⟨hT, hmul, fun hD => ?_⟩
    rw [hD.addedIds, List.length_range] at hmul
    have hn : 0 < slotCount adds := by omega
    generalize slotCount adds = n at *
    apply Nat.le_of_mul_le_mul_right _ hn
    calc s'.roots.length * n ≤ s'.roots.length * (2 * n - c.L.K) := Nat.mul_le_mul_left _ (by omega)
      _ ≤ c.L.K * (n + W * (2 * n - 1)) := hmul
      _ ≤ c.L.K * (n + W * (2 * n)) := Nat.mul_le_mul_left _ (Nat.add_le_add_left (Nat.mul_le_mul_left _ (by omega)) _)
      _ = _ := by ring

end Session

/-- C119: twenty items of length 12, buckets of 14: `Build(-1)` makes two to fourteen trees. -/
example : ∃ s s', Session (alt32 12) 1 .single (longAdds 20) (-1) 1 s s' ∧
    SplitsKept (alt32 12) 1 .single (slotCount (longAdds 20)) (-1) 1 ∧ (alt32 12).L.K < slotCount (longAdds 20) ∧
    Dense (longAdds 20) ∧ 2 ≤ s'.roots.length ∧ s'.roots.length ≤ 14 := by
  have hf : (alt32 12).L.Fits (Idx.buildBound (slotCount (longAdds 20)) (-1)) := by decide +kernel
  obtain ⟨s, s', _, h, _⟩ := C10_single (c := alt32 12) (alt32_wf (by decide))
    (Conc.angular_total altRng_inRange (by decide)) (alt32_balanced 12) 1 (longAdds 20)
    (legalAdds_of (by decide +kernel)) false 0 (-1) 1 hf
  have hk := splitsKept_of_length (numCPU := 1) (pol := .single) (workers := 1) h.wf (by decide) hf
  have hK : (alt32 12).L.K < slotCount (longAdds 20) := by decide +kernel
  have hD : Dense (longAdds 20) := by
    have key : (List.range (slotCount (longAdds 20))).all (fun i => (lastAdded (longAdds 20) i).isSome) = true := by decide +kernel
    exact fun i hi => List.all_eq_true.1 key i (List.mem_range.2 hi)
  obtain ⟨h1, -, h2, -⟩ := (h.C119_auto hk).2 hK (by decide +kernel)
  exact ⟨s, s', h, hk, hK, hD, h1, h2 hD⟩

/-- C119: three items of length 12: one bucket holds them all, so `Build(-1)` makes three trees of one node. -/
example : ∃ s s', Session (alt32 12) 1 .single (longAdds 3) (-1) 1 s s' ∧ s'.roots.length = 3 ∧ s'.nNodes = 9 := by
  have hf : (alt32 12).L.Fits (Idx.buildBound (slotCount (longAdds 3)) (-1)) := by decide +kernel
  obtain ⟨s, s', _, h, _⟩ := C10_single (c := alt32 12) (alt32_wf (by decide))
    (Conc.angular_total altRng_inRange (by decide)) (alt32_balanced 12) 1 (longAdds 3)
    (legalAdds_of (by decide +kernel)) false 0 (-1) 1 hf
  have hk := splitsKept_of_length (numCPU := 1) (pol := .single) (workers := 1) h.wf (by decide) hf
  have hn : slotCount (longAdds 3) = 3 := by decide +kernel
  have hK : slotCount (longAdds 3) ≤ (alt32 12).L.K := by decide +kernel
  have e1 : s'.roots.length = 3 := ((h.C119_auto hk).1 (Or.inl hK)).trans hn
  have e2 : s'.nNodes = 3 + 2 * s'.roots.length := ((h.C119_nodes hk).1 (Or.inl hK)).trans (congrArg (· + 2 * s'.roots.length) hn)
  exact ⟨s, s', h, e1, by omega⟩

/-- C119: twenty items of length 12, two workers: `Build(-1)` makes two to seventy trees, whatever the workers do. -/
example : ∃ s s', Session (oracle32 12) 8 .multi (longAdds 20) (-1) 2 s s' ∧
    SplitsKept (oracle32 12) 8 .multi (slotCount (longAdds 20)) (-1) 2 ∧ (oracle32 12).L.K < slotCount (longAdds 20) ∧
    Dense (longAdds 20) ∧ 2 ≤ s'.roots.length ∧ s'.roots.length ≤ 70 := by
  have hc : (oracle32 12).WF := oracle32_wf (by decide)
  have hf : (oracle32 12).L.Fits (treeRoom 8 .multi (slotCount (longAdds 20)) (-1) 2) := by decide +kernel
  obtain ⟨s, s', h⟩ := multi_session hc (Conc.angular_total oracle_inRange (by decide))
    (Conc.angular_canBalance (by decide)) (fun _ => 0) (longAdds 20) (legalAdds_of (by decide +kernel)) 8 (-1) 2 (W := 2) (by decide) hf
  have hk := splitsKept_of_length hc (by decide) hf
  have hK : (oracle32 12).L.K < slotCount (longAdds 20) := by decide +kernel
  have hD : Dense (longAdds 20) := by
    have key : (List.range (slotCount (longAdds 20))).all (fun i => (lastAdded (longAdds 20) i).isSome) = true := by decide +kernel
    exact fun i hi => List.all_eq_true.1 key i (List.mem_range.2 hi)
  obtain ⟨h1, -, h2⟩ := (h.C119_auto_multi hk (W := 2) (by decide) (by decide)).2.2.2 hK (by decide +kernel)
  exact ⟨s, s', h, hk, hK, hD, h1, h2 hD⟩

end Annoy
