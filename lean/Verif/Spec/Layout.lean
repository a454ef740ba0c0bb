import Verif.Model.Layout
/-!
# Specification: what a usable node layout is

`Layout.Ok` says nothing about how `nodeSize` is computed, only what the parts of a node need.
-/
namespace Annoy

/-- A usable layout for values of `sz` bytes. -/
structure Layout.Ok (L : Layout) (sz : Nat) : Prop where
  szIX_pos : 0 < L.szIX
  sz_pos : 0 < sz
  /-- the cached norm fits into the two child numbers -/
  norm_fits : sz ≤ 2 * L.szIX
  /-- the vector lies behind the descendant count and the two child numbers -/
  offV_ge : 3 * L.szIX ≤ L.offV
  /-- the vector ends with the node -/
  size_eq : L.nodeSize = L.offV + L.f * sz
  /-- the node size is a `TIX` -/
  size_lt : L.nodeSize < L.range
  /-- `K` child numbers fit, one more does not -/
  K_fits : L.szIX + L.K * L.szIX ≤ L.nodeSize
  K_max : L.nodeSize < L.szIX + (L.K + 1) * L.szIX

/-- `n` nodes fit into the address range of the index type, including the slack of the growth factor 1.5
(index/annoyindex.go:476). -/
def Layout.Fits (L : Layout) (n : Nat) : Prop := 3 * n * L.nodeSize < 2 * L.range

/-- Inner nodes keep their two child numbers when they are stored: `CopyNode` is given the vector length
`f` as number of bytes, so the descendant count and the first child need `2*szIX ≤ f`, and the second child
keeps its `f - 2*szIX` low bytes only, enough for node numbers below `B`.  (`3*szIX ≤ f` is always
enough, see `Layout.Ok.deep`.) -/
def Layout.Deep (L : Layout) (B : Nat) : Prop := 2 * L.szIX ≤ L.f ∧ B ≤ 2 ^ (8 * (L.f - 2 * L.szIX))

/-- The number `n` of item slots survives in a node of which `CopyNode` stored the first `f` bytes.  Always so for
`f ≥ szIX`; with `uint32` and vectors of length 1, 2, 3 it allows up to 255, 65535, 16777215 slots. -/
def Layout.CountKept (L : Layout) (n : Nat) : Prop := n < 2 ^ (8 * L.f)

/-- What a root may have as descendant count in an index with `n` item slots: `n`, or what is left of it in `f` bytes. -/
def Layout.RootCount (L : Layout) (n k : Nat) : Prop := k = n ∨ k = n % 2 ^ (8 * L.f)

theorem Layout.RootCount.eq {L : Layout} {n k : Nat} (h : L.RootCount n k) (hn : L.CountKept n) : k = n := by
  rcases h with h | h
  · exact h
  · rw [h]; exact Nat.mod_eq_of_lt hn

theorem Layout.RootCount.cut {L : Layout} {n k : Nat} (h : L.RootCount n k) : k % 2 ^ (8 * L.f) = n % 2 ^ (8 * L.f) := by
  rcases h with h | h <;> rw [h]
  exact Nat.mod_mod _ _

end Annoy
