import Verif.Props.OwnVector
import Verif.Props.History
/-!
# C112: indexes handed to `GetItem`, `GetDistance` and `GetNnsByItem` are not checked
-/
namespace Annoy

/-- Two indexes at one address (distance/angular/distance.go:52-59 multiplies in `TIX`). -/
theorem Layout.addr_add_quarter {L : Layout} (h4 : 4 ∣ L.nodeSize) (hr : 4 ∣ L.range) (i : Nat) :
    L.addr (i + L.range / 4) = L.addr i := by
  obtain ⟨k, hk⟩ := h4
  obtain ⟨q, hq⟩ := hr
  have e : (i + L.range / 4) * L.nodeSize = i * L.nodeSize + L.range * k := by
    rw [hk, hq, Nat.mul_div_cancel_left _ (by decide : 0 < 4)]; ring
  unfold Layout.addr Layout.wrap
  rw [e, Nat.add_mul_mod_self_left]

theorem Index32.quarter {c : Cfg} (h : Index32 c) : 4 ∣ c.L.nodeSize ∧ c.L.range = 4 * 2 ^ 30 := by
  cases h with
  | @angular32 f _ h =>
    refine ⟨?_, rfl⟩
    show 4 ∣ (12 + f * 4) % 2 ^ 32
    omega
  | @angular64 f _ h =>
    refine ⟨?_, rfl⟩
    show 4 ∣ (16 + f * 8) % 2 ^ 32
    omega
  | @dot32 f _ h =>
    refine ⟨?_, rfl⟩
    show 4 ∣ (16 + f * 4) % 2 ^ 32
    omega
  | @dot64 f _ h =>
    refine ⟨?_, rfl⟩
    show 4 ∣ (24 + f * 8) % 2 ^ 32
    omega

theorem getNode_congr {L : Layout} {m : Block} {i j : Nat} (h : L.addr i = L.addr j) : getNode L m i = getNode L m j := by
  unfold getNode
  rw [h]

/-- **C112**, the wrap: with `uint32` every index answers as the one `2^30` above it does.  Nothing is assumed of the index or of its memory. -/
theorem C112_alias {c : Cfg} (h : Index32 c) (s : Idx c) (w : World) (i : Nat) :
    s.getItem w (i + 2 ^ 30) = s.getItem w i ∧
    (∀ j, s.getDistance w (i + 2 ^ 30) j = s.getDistance w i j ∧ s.getDistance w j (i + 2 ^ 30) = s.getDistance w j i) ∧
    ∀ fuel n b ctx, s.getNnsByItem fuel w (i + 2 ^ 30) n b ctx = s.getNnsByItem fuel w i n b ctx := by
  obtain ⟨h1, h2⟩ := h.quarter
  have e : getNode c.L (s.mem w) (i + 2 ^ 30) = getNode c.L (s.mem w) i := getNode_congr (by
    have := Layout.addr_add_quarter h1 ⟨2 ^ 30, h2⟩ i
    rwa [h2, Nat.mul_div_cancel_left _ (by decide : 0 < 4)] at this)
  refine ⟨?_, fun j => ⟨?_, ?_⟩, fun fuel n b ctx => ?_⟩
  · simp only [Idx.getItem, e]
  · simp only [Idx.getDistance, e]
  · simp only [Idx.getDistance, e]
  · simp only [Idx.getNnsByItem, e]

namespace Session
variable {c : Cfg} {numCPU : Nat} {pol : BuildPolicy} {adds : List (Nat × List c.N.V)} {trees workers : Int} {s s' : Idx c}

/-- **C112**, what an index that was not added leads to.  A gap reads as the vector of zero bytes; a number behind the items reads
as the bytes of a node of a tree; a number whose (wrapped) address is outside the memory reads outside the memory; and no index at
all is answered by a panic of the library. -/
theorem C112_partial (h : Session c numCPU pol adds trees workers s s') (w : World) (i : Nat) :
    (∀ v, lastAdded adds i = some v → s'.getItem w i = .ok v) ∧
    (i < slotCount adds → lastAdded adds i = none →
      s'.getItem w i = .ok (List.replicate c.L.f (c.C.dec (List.replicate c.C.sz 0)))) ∧
    (i < s'.nNodes → ∃ v, v.length = c.L.f ∧ s'.getItem w i = .ok v) ∧
    (s'.getItem w i = .error .oob ↔ (s'.mem w).size < i * c.L.nodeSize % c.L.range + c.L.nodeSize) ∧
    (∀ e, s'.getItem w i = .error e → e = .oob) ∧
    (∀ j e, s'.getDistance w i j = .error e → e = .oob) := by
  obtain ⟨N0, B, _⟩ := h.built
  have hle := B.n_le_nNodes
  refine ⟨fun v hv => B.getItem w hv, fun hi hm => ?_, fun hi => ?_, ?_, fun e he => ?_, fun j e he => ?_⟩
  · have h1 := B.getNode w (by omega : i < s'.nNodes)
    simp only [Idx.getItem, h1, bind, Except.bind]
    rw [(B.mem_eq w (by omega)).1]
    refine congrArg Except.ok ?_
    have hs := h.wf.layout.size_eq
    have e : ∀ k ∈ List.range c.L.f,
        c.C.dec (readBytes s'.alloc.block.get (i * c.L.nodeSize + c.L.offV + k * c.C.sz) c.C.sz) =
          c.C.dec (List.replicate c.C.sz 0) := by
      intro k hk
      refine congrArg _ (List.ext_getElem (by simp [readBytes]) fun x hx _ => ?_)
      have hx' : x < c.C.sz := by simpa [readBytes] using hx
      have hk' := List.mem_range.1 hk
      have hb : (k + 1) * c.C.sz ≤ c.L.f * c.C.sz := Nat.mul_le_mul_right _ hk'
      have := B.gaps i hi hm (c.L.offV + k * c.C.sz + x) (by rw [hs]; nlinarith) (Or.inr (by omega))
      simp only [readBytes, List.getElem_map, List.getElem_range, List.getElem_replicate]
      rw [← this]
      show s'.alloc.data _ = _
      congr 1
      omega
    unfold Node.vec
    rw [List.map_congr_left e, List.map_const', List.length_range]
  · have h1 := B.getNode w hi
    simp only [Idx.getItem, h1, bind, Except.bind]
    exact ⟨_, by simp [Node.vec], rfl⟩
  · unfold Idx.getItem getNode
    by_cases hh : c.L.addr i + c.L.nodeSize ≤ (s'.mem w).size
    · simp only [if_pos hh, bind, Except.bind]
      exact ⟨fun h => by simp at h, fun h => absurd hh (by unfold Layout.addr Layout.wrap; omega)⟩
    · simp only [if_neg hh, bind, Except.bind]
      exact ⟨fun _ => by unfold Layout.addr Layout.wrap at hh; omega, fun _ => trivial⟩
  · unfold Idx.getItem getNode at he
    split at he <;> simp only [bind, Except.bind] at he <;> cases he
    rfl
  · unfold Idx.getDistance getNode at he
    split at he
    · split at he <;> simp only [bind, Except.bind] at he <;> cases he
      rfl
    · simp only [bind, Except.bind] at he
      cases he
      rfl

end Session

/-- **C112 as stated is false**: twenty items, indexes 0 to 19, `uint32`, `float32`, vectors of length 12.  `GetItem` of 20, which is
no item, returns a vector, `GetNnsByItem` of 20 answers, and `GetItem` of `2^30 + 8` returns the vector of item 8. -/
theorem C112_refuted : ∃ s s', Session (angular32 4 12) 1 .single (longAdds 20) 1 1 s s' ∧
    slotCount (longAdds 20) = 20 ∧ lastAdded (longAdds 20) 20 = none ∧ lastAdded (longAdds 20) (2 ^ 30 + 8) = none ∧ ∀ w,
    (∃ v, s'.getItem w 20 = .ok v) ∧
    (∃ fuel ctx x, s'.getNnsByItem fuel w 20 1 (-1) ctx = .ok x) ∧
    s'.getItem w (2 ^ 30 + 8) = .ok (longVec 8) := by
  obtain ⟨s, s', h, hp⟩ := made_with (c := angular32 4 12) (r := Kiss32.new 0) (adds := longAdds 20) (trees := 1)
    (fun s' => decide (s'.roots ≠ []))
    (angular32_wf (Or.inl rfl) (by decide)) (legalAdds_of (by decide +kernel)) (by decide +kernel) (by decide +kernel)
  have hroots := of_decide_eq_true hp
  have hi : Index32 (angular32 4 12) := .angular32 (by decide) (by decide)
  refine ⟨s, s', h, by decide +kernel, by decide +kernel, by decide +kernel, fun w => ?_⟩
  obtain ⟨N0, B, _⟩ := h.built
  have hn : slotCount (longAdds 20) = 20 := by decide +kernel
  have hlt : 20 < s'.nNodes := by
    have h1 : 20 ≤ N0 := hn ▸ B.n_le
    have h2 := B.nNodes
    have h3 := List.length_pos_iff.2 hroots
    omega
  obtain ⟨-, -, h3, -⟩ := h.C112_partial w 20
  obtain ⟨v, hv, hv'⟩ := h3 hlt
  refine ⟨⟨v, hv'⟩, ?_, ?_⟩
  · obtain ⟨ts, S, _⟩ := h.searchable w
    let ctx : Ctx (angular32 4 12) := ⟨List.replicate (ts.flatMap Tree.items).length 0, []⟩
    refine ⟨Tree.sizes ts + 1, ctx, ?_⟩
    rw [C24_by_item, hv']
    rcases Search.outcome h.wf hi.lawful S (hi.goodQuery v hv) 1 (-1) (Nat.lt_succ_self _) ctx with h1 | ⟨h1, _⟩
    · exact h1
    · simp [ctx] at h1
  · rw [Nat.add_comm, (C112_alias hi s' w 8).1]
    have hv : lastAdded (longAdds 20) 8 = some (longVec 8) := by decide +kernel
    exact B.getItem w hv

/-- C112: an index with items 0 and 20 only.  Index 5 is a gap, and reads as twelve zeros. -/
example : ∃ s s', Session (angular32 4 12) 1 .single farAdds 1 1 s s' ∧ 5 < slotCount farAdds ∧ lastAdded farAdds 5 = none ∧
    ∀ w, s'.getItem w 5 = .ok (List.replicate 12 (x32 0)) := by
  obtain ⟨s, s', h, _⟩ := made_with (c := angular32 4 12) (r := Kiss32.new 0) (adds := farAdds) (trees := 1) (fun _ => true)
    (angular32_wf (Or.inl rfl) (by decide)) (legalAdds_of (by decide +kernel)) (by decide +kernel) (by decide +kernel)
  have h1 : 5 < slotCount farAdds := by decide +kernel
  have h2 : lastAdded farAdds 5 = none := by decide +kernel
  refine ⟨s, s', h, h1, h2, fun w => ?_⟩
  rw [(h.C112_partial w 5).2.1 h1 h2]
  rfl

end Annoy
