import Verif.Proof.Layout
import Verif.Proof.Instances
/-!
# CopyNode (C52)

`utils.CopyNode(dst, src, size)` (utils/node.go:23-31) copies `size` bytes.  All three callers pass the vector length
(index/annoyindex.go:205 and 447, distance/two_means.go:37-38), so `f` bytes are copied of a node of
`offV + f * unsafe.Sizeof(TV(0))` bytes.
-/
namespace Annoy
namespace Node
variable {L : Layout} {sz : Nat} {V : Type} {C : Codec V}

theorem copy_same (dst : Bytes) (da : Nat) (src : Bytes) (sa n : Nat) :
    Same n (copyNode dst da src sa n) da src sa := fun _ hj => copy_inside dst da src sa n _ hj

/-- **C52, exactly.**  The copy is equal to the source in its first `f` bytes and to the old destination elsewhere. -/
theorem C52_bytes_partial (dst : Bytes) (da : Nat) (src : Bytes) (sa x : Nat) :
    copyNode dst da src sa L.f x = if da ≤ x ∧ x < da + L.f then src (sa + (x - da)) else dst x := by
  split
  · next h =>
    have := copy_inside dst da src sa L.f (x - da) (by omega)
    rw [show da + (x - da) = x by omega] at this
    exact this
  · next h =>
    unfold copyNode
    exact writeBytes_outside _ _ _ _ (by simp only [readBytes_length]; omega)

/-- **C52, what holds: the header.**  With vectors of at least `3 * sizeof(TIX)` values (12 for 32-bit indexes) the
descendant count and the two children of the copy are those of the source; with at least `sizeof(TIX)` values the
count is.  Missing for the full claim: the vector, `C52_refuted`. -/
theorem C52_header_partial (dst : Bytes) (da : Nat) (src : Bytes) (sa : Nat) :
    (L.szIX ≤ L.f → nDesc L (copyNode dst da src sa L.f) da = nDesc L src sa) ∧
    (3 * L.szIX ≤ L.f → child L (copyNode dst da src sa L.f) da 0 = child L src sa 0 ∧
      child L (copyNode dst da src sa L.f) da 1 = child L src sa 1) :=
  ⟨fun h => nDesc_congr ((copy_same dst da src sa L.f).mono h), fun h =>
    ⟨child_congr ((copy_same dst da src sa L.f).mono (by omega)), child_congr ((copy_same dst da src sa L.f).mono h)⟩⟩

/-- **C52, what holds: buckets.**  All children of a bucket survive if they lie in the first `f` bytes. -/
theorem C52_children_partial (dst : Bytes) (da : Nat) (src : Bytes) (sa : Nat)
    (h : (nDesc L src sa + 1) * L.szIX ≤ L.f) :
    getChildren L (copyNode dst da src sa L.f) da = getChildren L src sa := by
  rw [Nat.add_mul] at h
  exact (getChildren_congr (copy_same dst da src sa L.f).symm (by omega) (by omega)).symm

/-- **C52, what holds: the front of the vector.** -/
theorem C52_front_partial (dst : Bytes) (da : Nat) (src : Bytes) (sa k : Nat) (hk : k < L.f)
    (h : L.offV + (k + 1) * C.sz ≤ L.f) :
    (vec L C (copyNode dst da src sa L.f) da)[k]? = (vec L C src sa)[k]? := by
  simp only [vec, List.getElem?_map, List.getElem?_range hk, Option.map_some]
  refine congrArg (some ∘ C.dec) (readBytes_congr fun j hj => ?_)
  rw [Nat.add_mul] at h
  have := copy_same dst da src sa L.f (L.offV + k * C.sz + j) (by omega)
  simpa [Nat.add_assoc] using this

/-- **C52 is false** for every node layout of the repository: the last component of the copied vector is never
copied, the destination keeps its own. -/
theorem C52_refuted (hL : L.Ok C.sz) (hf : 0 < L.f) (dst : Bytes) (da : Nat) (src : Bytes) (sa : Nat) :
    (vec L C (copyNode dst da src sa L.f) da)[L.f - 1]? = (vec L C dst da)[L.f - 1]? := by
  have h1 := hL.sz_pos
  have h2 := hL.offV_ge
  have h3 := hL.szIX_pos
  simp only [vec, List.getElem?_map, List.getElem?_range (show L.f - 1 < L.f by omega), Option.map_some]
  refine congrArg (some ∘ C.dec) (readBytes_congr fun j hj => ?_)
  have : (L.f - 1) * 1 ≤ (L.f - 1) * C.sz := Nat.mul_le_mul_left _ h1
  rw [C52_bytes_partial, if_neg (by omega)]

/-- So a node of an item with a last component other than the one in the destination is not copied: the vectors
differ. -/
theorem C52_refuted_vector (hL : L.Ok C.sz) (hf : 0 < L.f) (dst : Bytes) (da : Nat) (src : Bytes) (sa : Nat)
    (h : (vec L C src sa)[L.f - 1]? ≠ (vec L C dst da)[L.f - 1]?) :
    vec L C (copyNode dst da src sa L.f) da ≠ vec L C src sa := by
  intro e
  rw [← e] at h
  exact h (C52_refuted hL hf dst da src sa)

end Node

-- 16 dimensions, `float32`, 32-bit indexes: 16 of 76 bytes are copied, i.e. the header and one component of the vector.
example : 3 * (angular32 4 16).L.szIX ≤ (angular32 4 16).L.f ∧ (angular32 4 16).L.nodeSize = 76 ∧
    (angular32 4 16).L.offV + (0 + 1) * 4 ≤ (angular32 4 16).L.f ∧
    ¬ (angular32 4 16).L.offV + (1 + 1) * 4 ≤ (angular32 4 16).L.f := by decide

-- A vector of ones is copied onto a zeroed node: the last component of the copy is 0.
example : (Node.vec (angularLayout 4 4 2) (bvCodec 4)
    (Node.copyNode zeros 0 (Node.setVec (angularLayout 4 4 2) (bvCodec 4) zeros 0 [0x3f800000, 0x3f800000]) 0 2) 0)
    = [0, 0] := by decide +kernel

end Annoy
