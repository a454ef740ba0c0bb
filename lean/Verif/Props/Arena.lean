import Verif.Model.Arena
import Verif.Props.Items
import Verif.Props.Build
/-!
# C67: indexes made by one builder
-/
namespace Annoy
open Arena
variable {c : Cfg}

/-- What a program does with index number `k`, `n` indexes being there already: on an index of its own. -/
def aloneRun (r : c.R.σ) (k : Nat) : Nat → Option (Idx c) → List (Op c) → Except Err (Option (Idx c))
  | _, s, [] => .ok s
  | n, s, .make _ hint :: os => aloneRun r k (n + 1) (if n = k then some (Idx.new c r hint) else s) os
  | n, s, .add j i v :: os =>
    if j = k then
      match s with
      | none => .error (.panic "no such index")
      | some s =>
        match s.addItem i v with
        | .error e => .error e
        | .ok s => aloneRun r k n (some s) os
    else aloneRun r k n s os
  | n, s, .close j :: os => aloneRun r k n (if j = k then s.map Idx.close else s) os

/-- The allocators of the indexes a program makes, in order. -/
def allocsOf : List (Op c) → List Nat
  | [] => []
  | .make a _ :: os => a :: allocsOf os
  | _ :: os => allocsOf os

namespace Arena

/-- Each arena was made by one allocator, and only its indexes point to it. -/
structure Owned (y : Sys) (own : Nat → Nat) : Prop where
  alloc : ∀ a p, y.mem.alloc a = some p → own p = a ∧ p < y.mem.next
  ptr : ∀ x ∈ y.idx, ∀ p, x.ptr = some p → own p = x.alloc ∧ p < y.mem.next

/-- The allocator object `a` is in state `al`. -/
def AllocSim (m : Mem) (a : Nat) (al : Alloc) : Prop :=
  match m.alloc a with
  | none => al.present = false ∧ al.size = 0
  | some p => al.present = true ∧ al.block = m.arena p

/-- The index `x` is in state `s`. -/
structure XSim (m : Mem) (x : Index) (s : Idx c) : Prop where
  nItems : x.nItems = s.nItems
  nodesSize : x.nodesSize = s.nodesSize
  loaded : s.loaded = false
  alloc : AllocSim m x.alloc s.alloc
  ptr : (x.ptr = none ∧ s.nodes = .null) ∨ (∃ p, x.ptr = some p ∧ m.alloc x.alloc = some p ∧ s.nodes = .build)

theorem XSim.frame {m m' : Mem} {x : Index} {s : Idx c} (h : XSim m x s) (h1 : m'.alloc x.alloc = m.alloc x.alloc)
    (h2 : ∀ p, m.alloc x.alloc = some p → m'.arena p = m.arena p) : XSim m' x s := by
  refine ⟨h.nItems, h.nodesSize, h.loaded, ?_, by rw [h1]; exact h.ptr⟩
  have := h.alloc
  unfold AllocSim at this ⊢
  rw [h1]
  cases ha : m.alloc x.alloc with
  | none => rw [ha] at this; exact this
  | some p => rw [ha] at this; dsimp only at this ⊢; rw [h2 p ha]; exact this

theorem XSim.bmem {m : Mem} {x : Index} {s : Idx c} (h : XSim m x s) :
    s.bmem = (match x.ptr with | none => ⟨0, zeros⟩ | some p => m.arena p) := by
  unfold Idx.bmem
  rcases h.ptr with ⟨h1, h2⟩ | ⟨p, h1, h2, h3⟩
  · rw [h1, h2]
  · rw [h1, h3]
    have := h.alloc
    unfold AllocSim at this
    rw [h2] at this
    exact this.2

theorem reallocate_spec (m : Mem) (own : Nat → Nat) (h : ∀ a p, m.alloc a = some p → own p = a ∧ p < m.next) (a size : Nat) :
    ∃ own' : Nat → Nat, (∀ b p, (m.reallocate a size).2.alloc b = some p → own' p = b ∧ p < (m.reallocate a size).2.next) ∧
      (∀ q, q < m.next → own' q = own q ∧ (m.reallocate a size).2.arena q = m.arena q) ∧
      m.next ≤ (m.reallocate a size).2.next ∧
      (m.reallocate a size).2.alloc a = some (m.reallocate a size).1 ∧
      (∀ b, b ≠ a → (m.reallocate a size).2.alloc b = m.alloc b) ∧
      (∀ al, AllocSim m a al → AllocSim (m.reallocate a size).2 a (al.reallocate size)) := by
  have fresh : ∀ old : Block, ∀ r : Nat × Mem,
      r = (m.next,
        { arena := fun p => if p = m.next then ⟨size, ⟨fun x => if x < old.size then old.get x else 0⟩⟩ else m.arena p
          next := m.next + 1
          alloc := fun b => if b = a then some m.next else m.alloc b }) →
      (∀ al, AllocSim m a al → ¬ (al.present = true ∧ size < al.size) ∧ (al.size = old.size ∧ ∀ x, x < old.size → al.data x = old.get x)) →
      ∃ own' : Nat → Nat, (∀ b p, r.2.alloc b = some p → own' p = b ∧ p < r.2.next) ∧
        (∀ q, q < m.next → own' q = own q ∧ r.2.arena q = m.arena q) ∧
        m.next ≤ r.2.next ∧ r.2.alloc a = some r.1 ∧ (∀ b, b ≠ a → r.2.alloc b = m.alloc b) ∧
        (∀ al, AllocSim m a al → AllocSim r.2 a (al.reallocate size)) := by
    rintro old r rfl hal
    refine ⟨fun p => if p = m.next then a else own p, ?_, ?_, Nat.le_succ _, ?_, ?_, ?_⟩
    · intro b p hb
      dsimp only at hb ⊢
      split at hb
      · next e => cases hb; rw [if_pos rfl]; exact ⟨e.symm, Nat.lt_succ_self _⟩
      · obtain ⟨h1, h2⟩ := h b p hb
        rw [if_neg (by omega)]
        exact ⟨h1, by omega⟩
    · intro q hq
      dsimp only
      rw [if_neg (by omega), if_neg (by omega)]
      exact ⟨rfl, rfl⟩
    · simp
    · intro b hb
      simp [hb]
    · intro al hs
      obtain ⟨h1, h2, h3⟩ := hal al hs
      unfold AllocSim Alloc.reallocate
      rw [if_neg h1]
      simp only [if_true]
      refine ⟨trivial, ?_⟩
      show (Block.mk _ _) = _
      congr 1
      show Bytes.mk _ = Bytes.mk _
      congr 1
      funext x
      rw [h2]
      by_cases hx : x < old.size
      · rw [if_pos hx, if_pos hx, h3 x hx]
      · rw [if_neg hx, if_neg hx]
  cases ha : m.alloc a with
  | none =>
    apply fresh ⟨0, zeros⟩
    · unfold Mem.reallocate; rw [ha]
    · intro al hs
      unfold AllocSim at hs
      rw [ha] at hs
      exact ⟨by rw [hs.1]; simp, hs.2, fun x hx => absurd hx (Nat.not_lt_zero _)⟩
  | some p =>
    by_cases hsz : size < (m.arena p).size
    · have e : m.reallocate a size = (p, m) := by unfold Mem.reallocate; rw [ha]; simp only [if_pos hsz]
      rw [e]
      refine ⟨own, h, fun q _ => ⟨rfl, rfl⟩, Nat.le_refl _, ha, fun _ _ => rfl, fun al hs => ?_⟩
      have hs' := hs
      unfold AllocSim at hs
      rw [ha] at hs
      have : al.reallocate size = al := by
        unfold Alloc.reallocate
        rw [if_pos ⟨hs.1, by have := hs.2; rw [← this] at hsz; exact hsz⟩]
      rw [this]
      exact hs'
    · apply fresh (m.arena p)
      · unfold Mem.reallocate; rw [ha]; simp only [if_neg hsz]
      · intro al hs
        unfold AllocSim at hs
        rw [ha] at hs
        obtain ⟨h1, h2⟩ := hs
        rw [← h2] at hsz ⊢
        exact ⟨fun h => hsz h.2, rfl, fun x _ => rfl⟩

theorem allocateSize_owned (m : Mem) (own : Nat → Nat) (h : ∀ a p, m.alloc a = some p → own p = a ∧ p < m.next) (x : Index)
    (hx : ∀ p, x.ptr = some p → own p = x.alloc ∧ p < m.next) (n : Nat) :
    ∃ own' : Nat → Nat, (∀ b p, (allocateSize c m x n).1.alloc b = some p → own' p = b ∧ p < (allocateSize c m x n).1.next) ∧
      (∀ q, q < m.next → own' q = own q ∧ (allocateSize c m x n).1.arena q = m.arena q) ∧
      m.next ≤ (allocateSize c m x n).1.next ∧
      (∀ p, (allocateSize c m x n).2.ptr = some p → own' p = x.alloc ∧ p < (allocateSize c m x n).1.next) ∧
      (allocateSize c m x n).2.alloc = x.alloc ∧
      (∀ b, b ≠ x.alloc → (allocateSize c m x n).1.alloc b = m.alloc b) ∧
      (∀ s : Idx c, XSim m x s → XSim (allocateSize c m x n).1 (allocateSize c m x n).2 (s.allocateSize n)) := by
  by_cases hn : n > x.nodesSize
  · obtain ⟨own', h1, h2, h3, h4, h5, h6⟩ := reallocate_spec m own h x.alloc
      (c.L.wrap (max n (c.L.wrap (c.L.wrap (x.nodesSize + 1) * 3 / 2)) * c.L.nodeSize))
    unfold allocateSize
    simp only [if_pos hn]
    refine ⟨own', h1, h2, h3, ?_, trivial, h5, ?_⟩
    · intro p hp
      cases hp
      exact h1 _ _ h4
    · intro s hs
      unfold Idx.allocateSize
      rw [if_pos (by rw [← hs.nodesSize]; exact hn)]
      refine ⟨hs.nItems, ?_, hs.loaded, ?_, .inr ⟨_, rfl, h4, rfl⟩⟩
      · dsimp only; rw [hs.nodesSize]
      · dsimp only; rw [← hs.nodesSize]; exact h6 _ hs.alloc
  · unfold allocateSize
    simp only [if_neg hn]
    refine ⟨own, h, by simp, Nat.le_refl _, hx, trivial, fun _ _ => trivial, fun s hs => ?_⟩
    unfold Idx.allocateSize
    rw [if_neg (by rw [← hs.nodesSize]; exact hn)]
    exact hs

/-- Index number `k` is in state `s`, or not made yet. -/
def Good (y : Sys) (k : Nat) : Option (Idx c) → Prop
  | none => y.idx.length ≤ k
  | some s => ∃ x, y.idx[k]? = some x ∧ XSim y.mem x s

theorem Owned.make {y : Sys} {own : Nat → Nat} (h : Owned y own) (a hint : Nat) : ∃ own', Owned (y.make c a hint) own' := by
  unfold Sys.make
  by_cases hh : hint > 0
  · obtain ⟨own', h1, h2, h3, _⟩ := reallocate_spec y.mem own h.alloc a (c.L.wrap (c.L.nodeSize * hint) * 3 / 2)
    refine ⟨own', ?_, ?_⟩
    · simp only [if_pos hh]; exact h1
    · simp only [if_pos hh]
      intro x hx p hp
      rcases List.mem_append.1 hx with hx | hx
      · obtain ⟨e1, e2⟩ := h.ptr x hx p hp
        exact ⟨(h2 p e2).1.trans e1, by omega⟩
      · rw [List.mem_singleton.1 hx] at hp; cases hp
  · refine ⟨own, by simp only [if_neg hh]; exact h.alloc, ?_⟩
    simp only [if_neg hh]
    intro x hx p hp
    rcases List.mem_append.1 hx with hx | hx
    · exact h.ptr x hx p hp
    · rw [List.mem_singleton.1 hx] at hp; cases hp

theorem Owned.close {y y' : Sys} {own : Nat → Nat} (h : Owned y own) {k : Nat} (hy : y.close k = .ok y') : Owned y' own := by
  unfold Sys.close at hy
  cases hx : y.idx[k]? with
  | none => rw [hx] at hy; cases hy
  | some x =>
    rw [hx] at hy
    cases hy
    refine ⟨?_, ?_⟩
    · intro a p hp
      simp only [Mem.free] at hp ⊢
      split at hp
      · cases hp
      · exact h.alloc a p hp
    · intro x' hx' p hp
      rcases List.mem_or_eq_of_mem_set hx' with hx' | rfl
      · exact h.ptr x' hx' p hp
      · cases hp

/-- What `AddItem` does, in one formula. -/
theorem addItem_eq {y y' : Sys} {j i : Nat} {v : List c.N.V} (h : y.addItem c j i v = .ok y') :
    ∃ x a, y.idx[j]? = some x ∧ v.length = c.L.f ∧
      getNode c.L (match (allocateSize c y.mem x (c.L.wrap (i + 1))).2.ptr with
        | none => ⟨0, zeros⟩ | some p => (allocateSize c y.mem x (c.L.wrap (i + 1))).1.arena p) i = .ok a ∧
      y' = { mem := (allocateSize c y.mem x (c.L.wrap (i + 1))).1.write (allocateSize c y.mem x (c.L.wrap (i + 1))).2.ptr
               fun b => c.D.initNode (Node.setVec c.L c.C (Node.setNDesc c.L b a 1) a v) a
             idx := y.idx.set j (if i ≥ (allocateSize c y.mem x (c.L.wrap (i + 1))).2.nItems
               then { (allocateSize c y.mem x (c.L.wrap (i + 1))).2 with nItems := c.L.wrap (i + 1) }
               else (allocateSize c y.mem x (c.L.wrap (i + 1))).2) } := by
  unfold Sys.addItem at h
  cases hx : y.idx[j]? with
  | none => rw [hx] at h; cases h
  | some x =>
    rw [hx] at h
    by_cases hv : v.length ≠ c.L.f
    · simp only [if_pos hv] at h; cases h
    · simp only [if_neg hv] at h
      split at h
      · cases h
      · next a ha => cases h; exact ⟨x, a, rfl, by omega, ha, rfl⟩

theorem ite_index (p : Prop) [Decidable p] (x : Index) (n : Nat) :
    (if p then { x with nItems := n } else x).ptr = x.ptr ∧ (if p then { x with nItems := n } else x).alloc = x.alloc ∧
    (if p then { x with nItems := n } else x).nodesSize = x.nodesSize := by
  split <;> exact ⟨rfl, rfl, rfl⟩

theorem Owned.addItem {y y' : Sys} {own : Nat → Nat} (h : Owned y own) {j i : Nat} {v : List c.N.V}
    (hy : y.addItem c j i v = .ok y') : ∃ own', Owned y' own' := by
  obtain ⟨x, a, h1, _, _, rfl⟩ := addItem_eq hy
  obtain ⟨own', o1, o2, o3, o4, o5, _, _⟩ := allocateSize_owned (c := c) y.mem own h.alloc x
    (h.ptr x (List.mem_of_getElem? h1)) (c.L.wrap (i + 1))
  refine ⟨own', o1, ?_⟩
  intro x' hx' p hp
  rcases List.mem_or_eq_of_mem_set hx' with hx' | rfl
  · obtain ⟨e1, e2⟩ := h.ptr x' hx' p hp
    exact ⟨(o2 p e2).1.trans e1, Nat.lt_of_lt_of_le e2 o3⟩
  · obtain ⟨e1, e2, _⟩ := ite_index (i ≥ (allocateSize c y.mem x (c.L.wrap (i + 1))).2.nItems)
      (allocateSize c y.mem x (c.L.wrap (i + 1))).2 (c.L.wrap (i + 1))
    rw [e1] at hp
    rw [e2, o5]
    exact o4 p hp

/-- `AddItem` on another index with another allocator. -/
theorem Good.add_other {y y' : Sys} {own : Nat → Nat} (h : Owned y own) {j k i : Nat} {v : List c.N.V}
    (hy : y.addItem c j i v = .ok y') (hjk : j ≠ k) (hal : ∀ x x', y.idx[j]? = some x → y.idx[k]? = some x' → x.alloc ≠ x'.alloc)
    {s : Option (Idx c)} (hg : Good y k s) : Good y' k s := by
  obtain ⟨x, a, h1, _, _, rfl⟩ := addItem_eq hy
  obtain ⟨own', o1, o2, o3, o4, o5, o6, _⟩ := allocateSize_owned (c := c) y.mem own h.alloc x
    (h.ptr x (List.mem_of_getElem? h1)) (c.L.wrap (i + 1))
  cases s with
  | none => simpa [Good] using hg
  | some s =>
    obtain ⟨x', hx', hs⟩ := hg
    refine ⟨x', by dsimp only; rw [List.getElem?_set_ne hjk]; exact hx', hs.frame (o6 _ (hal x x' h1 hx').symm) ?_⟩
    intro p hp
    obtain ⟨e1, e2⟩ := h.alloc _ _ hp
    have : some p ≠ (allocateSize c y.mem x (c.L.wrap (i + 1))).2.ptr := by
      intro e
      have := (o4 p e.symm).1
      rw [(o2 p e2).1, e1] at this
      exact hal x x' h1 hx' this.symm
    simp only [Mem.write, if_neg this]
    exact (o2 p e2).2

/-- `AddItem` on the index itself. -/
theorem Good.add_self (hc : c.WF) {y y' : Sys} {own : Nat → Nat} (h : Owned y own) {k i : Nat} {v : List c.N.V}
    (hy : y.addItem c k i v = .ok y') {s : Idx c} (hg : Good y k (some s)) : ∃ s', s.addItem i v = .ok s' ∧ Good y' k (some s') := by
  obtain ⟨x, a, h1, h2, h3, rfl⟩ := addItem_eq hy
  obtain ⟨own', o1, o2, o3, o4, o5, o6, o7⟩ := allocateSize_owned (c := c) y.mem own h.alloc x
    (h.ptr x (List.mem_of_getElem? h1)) (c.L.wrap (i + 1))
  obtain ⟨x', hx', hs⟩ := hg
  rw [h1] at hx'
  cases hx'
  have hs1 := o7 s hs
  rw [← hs1.bmem] at h3
  have hk : k < y.idx.length := (List.getElem?_eq_some_iff.1 h1).1
  unfold Idx.addItem
  rw [if_neg (by simp [hs.loaded]), if_neg (by simp [h2])]
  simp only [h3, bind, Except.bind]
  refine ⟨_, rfl, _, List.getElem?_set_self hk, ?_⟩
  generalize allocateSize c y.mem x (c.L.wrap (i + 1)) = p at *
  obtain ⟨m, x1⟩ := p
  generalize s.allocateSize (c.L.wrap (i + 1)) = s1 at *
  dsimp only at *
  have hnull : ∃ q, x1.ptr = some q ∧ m.alloc x1.alloc = some q ∧ s1.nodes = .build := by
    rcases hs1.ptr with ⟨e1, e2⟩ | e
    · exfalso
      have hb : s1.bmem = ⟨0, zeros⟩ := by unfold Idx.bmem; rw [e2]
      rw [hb] at h3
      have := (Idx.getNode_ok h3).2
      have := hc.layout.nodeSize_pos
      dsimp only at *
      omega
    · exact e
  obtain ⟨q, e1, e2, e3⟩ := hnull
  have hw : XSim (m.write x1.ptr fun b => c.D.initNode (Node.setVec c.L c.C (Node.setNDesc c.L b a 1) a v) a) x1
      (s1.write fun b => c.D.initNode (Node.setVec c.L c.C (Node.setNDesc c.L b a 1) a v) a) := by
    refine ⟨hs1.nItems, hs1.nodesSize, hs1.loaded, ?_, .inr ⟨q, e1, e2, e3⟩⟩
    have hal := hs1.alloc
    unfold AllocSim at hal ⊢
    simp only [Mem.write, e2] at hal ⊢
    refine ⟨hal.1, ?_⟩
    rw [e1, if_pos rfl, ← hal.2]
    rfl
  have hn : (i ≥ x1.nItems) = (i ≥ (s1.write fun b => c.D.initNode (Node.setVec c.L c.C (Node.setNDesc c.L b a 1) a v) a).nItems) := by
    rw [hs1.nItems]; rfl
  by_cases hi : i ≥ x1.nItems
  · rw [if_pos hi, if_pos (hn ▸ hi)]
    exact ⟨rfl, hw.nodesSize, hw.loaded, hw.alloc, hw.ptr⟩
  · rw [if_neg hi, if_neg (by rw [← hn]; exact hi)]
    exact hw

/-- `Close` of another index with another allocator. -/
theorem Good.close_other {y y' : Sys} {j k : Nat} (hy : y.close j = .ok y') (hjk : j ≠ k)
    (hal : ∀ x x', y.idx[j]? = some x → y.idx[k]? = some x' → x.alloc ≠ x'.alloc)
    {s : Option (Idx c)} (hg : Good y k s) : Good y' k s := by
  unfold Sys.close at hy
  cases hx : y.idx[j]? with
  | none => rw [hx] at hy; cases hy
  | some x =>
    rw [hx] at hy
    cases hy
    cases s with
    | none => simpa [Good] using hg
    | some s =>
      obtain ⟨x', hx', hs⟩ := hg
      refine ⟨x', by dsimp only; rw [List.getElem?_set_ne hjk]; exact hx', hs.frame ?_ fun _ _ => rfl⟩
      simp only [Mem.free]
      rw [if_neg (hal x x' hx hx').symm]

theorem Good.close_self {y y' : Sys} {k : Nat} (hy : y.close k = .ok y') {s : Idx c} (hg : Good y k (some s)) :
    Good y' k (some s.close) := by
  unfold Sys.close at hy
  obtain ⟨x, hx, hs⟩ := hg
  rw [hx] at hy
  cases hy
  refine ⟨_, List.getElem?_set_self (List.getElem?_eq_some_iff.1 hx).1, rfl, rfl, rfl, ?_, .inl ⟨rfl, rfl⟩⟩
  unfold AllocSim
  simp only [Mem.free, if_true]
  exact ⟨rfl, rfl⟩

/-- Another index is made, with another allocator. -/
theorem Good.make_other {y : Sys} {own : Nat → Nat} (h : Owned y own) {k a hint : Nat} (hk : y.idx.length ≠ k)
    (hal : ∀ x, y.idx[k]? = some x → a ≠ x.alloc) {s : Option (Idx c)} (hg : Good y k s) : Good (y.make c a hint) k s := by
  cases s with
  | none =>
    simp only [Good] at hg ⊢
    simp [Sys.make]
    omega
  | some s =>
    obtain ⟨x, hx, hs⟩ := hg
    have hkl := (List.getElem?_eq_some_iff.1 hx).1
    refine ⟨x, by simp only [Sys.make]; rw [List.getElem?_append_left hkl]; exact hx, ?_⟩
    unfold Sys.make
    by_cases hh : hint > 0
    · obtain ⟨own', h1, h2, h3, _, h5, _⟩ := reallocate_spec y.mem own h.alloc a (c.L.wrap (c.L.nodeSize * hint) * 3 / 2)
      simp only [if_pos hh]
      exact hs.frame (h5 _ (hal x hx).symm) fun p hp => (h2 p (h.alloc _ _ hp).2).2
    · simp only [if_neg hh]
      exact hs

/-- The index itself is made, with an allocator that was not used yet. -/
theorem Good.make_self {y : Sys} {a hint : Nat} (hal : y.mem.alloc a = none) (r : c.R.σ) :
    Good (y.make c a hint) y.idx.length (some (Idx.new c r hint)) := by
  refine ⟨⟨a, none, 0, 0⟩, by simp [Sys.make], rfl, rfl, rfl, ?_, .inl ⟨rfl, rfl⟩⟩
  unfold Sys.make Idx.new
  by_cases hh : hint > 0
  · simp only [if_pos hh]
    obtain ⟨own', _, _, _, _, _, h6⟩ := reallocate_spec ⟨y.mem.arena, y.mem.next, fun _ => none⟩ (fun _ => 0) (fun _ _ h => by cases h) a
      (c.L.wrap (c.L.nodeSize * hint) * 3 / 2)
    have := h6 Alloc.empty ⟨rfl, rfl⟩
    have e : (y.mem.reallocate a (c.L.wrap (c.L.nodeSize * hint) * 3 / 2)).2.alloc a =
        (Mem.reallocate ⟨y.mem.arena, y.mem.next, fun _ => none⟩ a (c.L.wrap (c.L.nodeSize * hint) * 3 / 2)).2.alloc a := by
      simp [Mem.reallocate, hal]
    have e2 : (y.mem.reallocate a (c.L.wrap (c.L.nodeSize * hint) * 3 / 2)).2.arena =
        (Mem.reallocate ⟨y.mem.arena, y.mem.next, fun _ => none⟩ a (c.L.wrap (c.L.nodeSize * hint) * 3 / 2)).2.arena := by
      simp [Mem.reallocate, hal]
    unfold AllocSim at this ⊢
    rw [e, e2]
    exact this
  · simp only [if_neg hh]
    unfold AllocSim
    rw [hal]
    exact ⟨rfl, rfl⟩

/-- Allocators belong to indexes that were made. -/
def Used (y : Sys) : Prop := ∀ a p, y.mem.alloc a = some p → ∃ x ∈ y.idx, x.alloc = a

theorem reallocate_other (m : Mem) (a size b : Nat) (h : b ≠ a) : (m.reallocate a size).2.alloc b = m.alloc b := by
  unfold Mem.reallocate
  cases ha : m.alloc a with
  | none => simp [h]
  | some p =>
    dsimp only
    split
    · rfl
    · simp [h]

theorem Used.apply {y y' : Sys} (h : Used y) {o : Op c} (hy : y.apply o = .ok y') : Used y' := by
  have keep : ∀ k x, ∀ x0 : Index, y.idx[k]? = some x0 → x.alloc = x0.alloc → ∀ b, (∃ x ∈ y.idx, x.alloc = b) →
      ∃ x' ∈ y.idx.set k x, x'.alloc = b := by
    intro k x x0 hx0 e b ⟨z, hz, hzb⟩
    obtain ⟨n, hn⟩ := List.mem_iff_getElem?.1 hz
    by_cases hnk : n = k
    · subst hnk
      rw [hx0] at hn
      cases hn
      exact ⟨x, List.mem_of_getElem? (List.getElem?_set_self (List.getElem?_eq_some_iff.1 hx0).1), e.trans hzb⟩
    · exact ⟨z, List.mem_of_getElem? (by rw [List.getElem?_set_ne (fun h => hnk h.symm)]; exact hn), hzb⟩
  cases o with
  | make a hint =>
    cases hy
    intro b p hp
    simp only [Sys.make] at hp ⊢
    by_cases hb : b = a
    · exact ⟨⟨a, none, 0, 0⟩, by simp, hb.symm⟩
    · have : y.mem.alloc b = some p := by
        split at hp
        · rw [reallocate_other _ _ _ _ hb] at hp; exact hp
        · exact hp
      obtain ⟨x, hx, e⟩ := h b p this
      exact ⟨x, List.mem_append_left _ hx, e⟩
  | add k i v =>
    obtain ⟨x, a, h1, _, _, rfl⟩ := addItem_eq hy
    intro b p hp
    have e2 : (if i ≥ (allocateSize c y.mem x (c.L.wrap (i + 1))).2.nItems
        then { (allocateSize c y.mem x (c.L.wrap (i + 1))).2 with nItems := c.L.wrap (i + 1) }
        else (allocateSize c y.mem x (c.L.wrap (i + 1))).2).alloc = x.alloc := by
      rw [(ite_index _ _ _).2.1]
      unfold allocateSize
      split <;> rfl
    refine keep k _ x h1 e2 b ?_
    by_cases hb : b = x.alloc
    · exact ⟨x, List.mem_of_getElem? h1, hb.symm⟩
    · apply h b p
      have hp' : (allocateSize c y.mem x (c.L.wrap (i + 1))).1.alloc b = some p := hp
      unfold allocateSize at hp'
      split at hp'
      · dsimp only at hp'
        rw [reallocate_other _ _ _ _ hb] at hp'; exact hp'
      · exact hp'
  | close k =>
    have hy' : y.close k = .ok y' := hy
    unfold Sys.close at hy'
    cases hx : y.idx[k]? with
    | none => rw [hx] at hy'; cases hy'
    | some x =>
      rw [hx] at hy'
      cases hy'
      intro b p hp
      refine keep k ⟨x.alloc, none, 0, 0⟩ x hx rfl b (h b p ?_)
      simp only [Mem.free] at hp
      split at hp
      · cases hp
      · exact hp

theorem addItem_allocs {y y' : Sys} {k i : Nat} {v : List c.N.V} (h : y.addItem c k i v = .ok y') :
    y'.idx.map Index.alloc = y.idx.map Index.alloc := by
  obtain ⟨x, a, h1, _, _, rfl⟩ := addItem_eq h
  have e2 : (if i ≥ (allocateSize c y.mem x (c.L.wrap (i + 1))).2.nItems
      then { (allocateSize c y.mem x (c.L.wrap (i + 1))).2 with nItems := c.L.wrap (i + 1) }
      else (allocateSize c y.mem x (c.L.wrap (i + 1))).2).alloc = x.alloc := by
    rw [(ite_index _ _ _).2.1]
    unfold allocateSize
    split <;> rfl
  dsimp only
  rw [List.map_set, e2]
  obtain ⟨hk, hx⟩ := List.getElem?_eq_some_iff.1 h1
  subst hx
  have : y.idx[k].alloc = (y.idx.map Index.alloc)[k]'(by simpa using hk) := by simp
  rw [this, List.set_getElem_self]

theorem close_allocs {y y' : Sys} {k : Nat} (h : y.close k = .ok y') : y'.idx.map Index.alloc = y.idx.map Index.alloc := by
  unfold Sys.close at h
  cases hx : y.idx[k]? with
  | none => rw [hx] at h; cases h
  | some x =>
    rw [hx] at h
    cases h
    dsimp only
    rw [List.map_set]
    obtain ⟨hk, hx⟩ := List.getElem?_eq_some_iff.1 hx
    subst hx
    have : y.idx[k].alloc = (y.idx.map Index.alloc)[k]'(by simpa using hk) := by simp
    rw [this, List.set_getElem_self]

/-- The induction over the program. -/
theorem run_alone (hc : c.WF) (r : c.R.σ) (k : Nat) : ∀ (ops : List (Op c)) (y y' : Sys) (own : Nat → Nat) (s : Option (Idx c)),
    Owned y own → Used y → Good y k s →
    (∀ j a, (y.idx.map Index.alloc ++ allocsOf ops)[j]? = some a → (y.idx.map Index.alloc ++ allocsOf ops)[k]? = some a → j = k) →
    y.run ops = .ok y' → ∃ s', aloneRun r k y.idx.length s ops = .ok s' ∧ Good y' k s' := by
  intro ops
  induction ops with
  | nil =>
    intro y y' own s ho hu hg hp hr
    cases hr
    exact ⟨s, rfl, hg⟩
  | cons o os ih =>
    intro y y' own s ho hu hg hp hr
    unfold Sys.run at hr
    cases ha : y.apply o with
    | error e => rw [ha] at hr; cases hr
    | ok y1 =>
      rw [ha] at hr
      dsimp only at hr
      have hu1 := hu.apply ha
      -- the allocator of another index
      have other : ∀ j x x', j ≠ k → y.idx[j]? = some x → y.idx[k]? = some x' → x.alloc ≠ x'.alloc := by
        intro j x x' hjk hx hx' e
        have hl := (List.getElem?_eq_some_iff.1 hx).1
        have hl' := (List.getElem?_eq_some_iff.1 hx').1
        refine hjk (hp j x.alloc ?_ ?_)
        · rw [List.getElem?_append_left (by simpa using hl), List.getElem?_map, hx]; rfl
        · rw [List.getElem?_append_left (by simpa using hl'), List.getElem?_map, hx', e]; rfl
      cases o with
      | make a hint =>
        cases ha
        obtain ⟨own', ho'⟩ := ho.make (c := c) a hint
        have hp' : ∀ j b, ((y.make c a hint).idx.map Index.alloc ++ allocsOf os)[j]? = some b →
            ((y.make c a hint).idx.map Index.alloc ++ allocsOf os)[k]? = some b → j = k := by
          have e : (y.make c a hint).idx.map Index.alloc ++ allocsOf os =
              y.idx.map Index.alloc ++ allocsOf (Op.make a hint :: os) := by
            simp [Sys.make, allocsOf]
          rw [e]; exact hp
        have hlen : (y.make c a hint).idx.length = y.idx.length + 1 := by simp [Sys.make]
        unfold aloneRun
        by_cases hk : y.idx.length = k
        · rw [if_pos hk]
          have hnone : y.mem.alloc a = none := by
            cases hna : y.mem.alloc a with
            | none => rfl
            | some p =>
              obtain ⟨x, hx, e⟩ := hu a p hna
              obtain ⟨j, hj⟩ := List.mem_iff_getElem?.1 hx
              have hl := (List.getElem?_eq_some_iff.1 hj).1
              have := hp j a (by rw [List.getElem?_append_left (by simpa using hl), List.getElem?_map, hj, ← e]; rfl)
                (by rw [List.getElem?_append_right (by simp [hk])]; simp [hk, allocsOf])
              omega
          have hg' := Good.make_self (c := c) (hint := hint) hnone r
          rw [hk] at hg'
          have := ih _ _ own' _ ho' hu1 hg' hp' hr
          rw [hlen] at this
          exact this
        · rw [if_neg hk]
          have hg' := hg.make_other ho (a := a) (hint := hint) hk (by
            intro x hx e
            have hl := (List.getElem?_eq_some_iff.1 hx).1
            have := hp y.idx.length a (by rw [List.getElem?_append_right (by simp)]; simp [allocsOf])
              (by rw [List.getElem?_append_left (by simpa using hl), List.getElem?_map, hx, e]; rfl)
            exact hk this)
          have := ih _ _ own' _ ho' hu1 hg' hp' hr
          rw [hlen] at this
          exact this
      | add j i v =>
        have ha' : y.addItem c j i v = .ok y1 := ha
        obtain ⟨own', ho'⟩ := ho.addItem ha'
        have hal := addItem_allocs ha'
        have hlen : y1.idx.length = y.idx.length := by simpa using congrArg List.length hal
        have hp' : ∀ j b, (y1.idx.map Index.alloc ++ allocsOf os)[j]? = some b →
            (y1.idx.map Index.alloc ++ allocsOf os)[k]? = some b → j = k := by rw [hal]; exact hp
        unfold aloneRun
        by_cases hjk : j = k
        · subst hjk
          rw [if_pos rfl]
          cases s with
          | none =>
            obtain ⟨x, _, hx, _⟩ := addItem_eq ha'
            have : y.idx.length ≤ j := hg
            rw [List.getElem?_eq_none this] at hx
            cases hx
          | some s =>
            obtain ⟨s1, e1, hg1⟩ := hg.add_self hc ho ha'
            simp only [e1]
            have := ih _ _ own' _ ho' hu1 hg1 hp' hr
            rw [hlen] at this
            exact this
        · rw [if_neg hjk]
          have hg1 := hg.add_other ho ha' hjk (fun x x' => other j x x' hjk)
          have := ih _ _ own' _ ho' hu1 hg1 hp' hr
          rw [hlen] at this
          exact this
      | close j =>
        have ha' : y.close j = .ok y1 := ha
        have ho' := ho.close ha'
        have hal := close_allocs ha'
        have hlen : y1.idx.length = y.idx.length := by simpa using congrArg List.length hal
        have hp' : ∀ j b, (y1.idx.map Index.alloc ++ allocsOf os)[j]? = some b →
            (y1.idx.map Index.alloc ++ allocsOf os)[k]? = some b → j = k := by rw [hal]; exact hp
        unfold aloneRun
        by_cases hjk : j = k
        · subst hjk
          rw [if_pos rfl]
          cases s with
          | none =>
            have : y.idx.length ≤ j := hg
            unfold Sys.close at ha'
            rw [List.getElem?_eq_none this] at ha'
            cases ha'
          | some s =>
            have := ih _ _ own _ ho' hu1 (hg.close_self ha') hp' hr
            rw [hlen] at this
            exact this
        · rw [if_neg hjk]
          have := ih _ _ own _ ho' hu1 (hg.close_other ha' hjk (fun x x' => other j x x' hjk)) hp' hr
          rw [hlen] at this
          exact this

end Arena

/-- **C67**, what is left of it: an index whose builder made no other index.  Whatever the program does with other indexes, it
answers `GetItem` as if it were alone: `s` is the index after the program's calls on it only. -/
theorem C67_own_builder_partial (hc : c.WF) (r : c.R.σ) {ops : List (Op c)} {y : Sys} (h : Sys.empty.run ops = .ok y) {k a : Nat}
    (hk : (allocsOf ops)[k]? = some a) (hp : ∀ j, (allocsOf ops)[j]? = some a → j = k) :
    ∃ s, aloneRun r k 0 none ops = .ok (some s) ∧ ∀ w i, y.getItem c k i = s.getItem w i := by
  have hp' : ∀ j b, ((Sys.empty).idx.map Index.alloc ++ allocsOf ops)[j]? = some b →
      ((Sys.empty).idx.map Index.alloc ++ allocsOf ops)[k]? = some b → j = k := by
    intro j b h1 h2
    have e : (Sys.empty).idx.map Index.alloc ++ allocsOf ops = allocsOf ops := rfl
    rw [e] at h1 h2
    rw [hk] at h2
    cases h2
    exact hp j h1
  obtain ⟨s, h1, h2⟩ := Arena.run_alone hc r k ops Sys.empty y (fun _ => 0) none
    ⟨fun _ _ h => (Option.some_ne_none _ h.symm).elim, fun _ h => absurd h List.not_mem_nil⟩
    (fun _ _ h => (Option.some_ne_none _ h.symm).elim) (Nat.zero_le _) hp' h
  cases s with
  | none =>
    exfalso
    have h3 : y.idx.length ≤ k := h2
    have h4 : ∀ (ops : List (Op c)) (y y' : Sys), y.run ops = .ok y' → y'.idx.length = y.idx.length + (allocsOf ops).length := by
      intro ops
      induction ops with
      | nil => intro y y' h; cases h; rfl
      | cons o os ih =>
        intro y y' h
        unfold Sys.run at h
        cases ha : y.apply o with
        | error e => rw [ha] at h; cases h
        | ok y1 =>
          rw [ha] at h
          rw [ih _ _ h]
          cases o with
          | make a hint => cases ha; simp [Sys.make, allocsOf]; omega
          | add j i v => simpa [allocsOf] using congrArg List.length (Arena.addItem_allocs (show y.addItem c j i v = .ok y1 from ha))
          | close j => simpa [allocsOf] using congrArg List.length (Arena.close_allocs (show y.close j = .ok y1 from ha))
    have h5 := h4 _ _ _ h
    have h6 := (List.getElem?_eq_some_iff.1 hk).1
    simp only [Sys.empty, List.length_nil] at h5
    omega
  | some s =>
    refine ⟨s, h1, fun w i => ?_⟩
    obtain ⟨x, hx, hs⟩ := h2
    have hm : s.mem w = y.block x := by
      refine Eq.trans ?_ hs.bmem
      unfold Idx.mem Idx.bmem
      rcases hs.ptr with ⟨_, e⟩ | ⟨_, _, _, e⟩ <;> rw [e]
    unfold Sys.getItem Idx.getItem
    rw [hx, hm]
    dsimp only
    cases getNode c.L (y.block x) i <;> rfl

/-- `float32` 1 and 0. -/
def one32 : ieee32.V := x32 0x3f800000
def zero32 : ieee32.V := x32 0

/-- Two indexes of one builder, items are added to both. -/
def mixedOps : List (Op (angular32 4 2)) :=
  [.make 0 0, .make 0 0, .add 0 0 [one32, zero32], .add 1 0 [zero32, one32], .add 0 1 [one32, one32]]

/-- Two indexes of one builder, the second one is closed without having been used. -/
def closedOps : List (Op (angular32 4 2)) :=
  [.make 0 0, .make 0 0, .add 0 0 [one32, zero32], .close 1, .add 0 1 [one32, one32]]

/-- The same two indexes made by a builder each. -/
def apartOps : List (Op (angular32 4 2)) :=
  [.make 0 0, .make 1 0, .add 0 0 [one32, zero32], .add 1 0 [zero32, one32], .close 1, .add 0 1 [one32, one32]]

/-- The call succeeded and its result passes the check. -/
def okWith {α : Type} (e : Except Err α) (p : α → Bool) : Bool :=
  match e with
  | .ok y => p y
  | .error _ => false

theorem okWith_elim {α : Type} {e : Except Err α} {p : α → Bool} (h : okWith e p = true) : ∃ y, e = .ok y ∧ p y = true := by
  cases e with
  | error e => cases h
  | ok y => exact ⟨y, rfl, h⟩

/-- Equality of vectors. -/
def sameVec (u v : List ieee32.V) : Bool := decide (u = v)

theorem sameVec_elim {u v : List ieee32.V} (h : sameVec u v = true) : u = v := of_decide_eq_true h

/-- The item of the index, checked. -/
def itemIs (v : List ieee32.V) (s : Option (Idx (angular32 4 2))) : Bool :=
  match s with
  | none => false
  | some s =>
    match s.nodes with
    | .build => okWith (getNode (angular32 4 2).L s.alloc.block 0) fun a =>
        sameVec (Node.vec (angular32 4 2).L (angular32 4 2).C s.alloc.data a) v
    | _ => false

theorem itemIs_elim {v : List ieee32.V} {s : Option (Idx (angular32 4 2))} (h : itemIs v s = true) :
    ∃ s', s = some s' ∧ ∀ w, s'.getItem w 0 = .ok v := by
  cases s with
  | none => cases h
  | some s =>
    refine ⟨s, rfl, fun w => ?_⟩
    unfold itemIs at h
    dsimp only at h
    split at h
    · next e =>
      obtain ⟨a, h1, h2⟩ := okWith_elim h
      unfold Idx.getItem Idx.mem
      rw [e]
      dsimp only
      rw [h1]
      exact congrArg Except.ok (sameVec_elim h2)
    · cases h

theorem shared_witness {ops : List (Op (angular32 4 2))} {v v' : List ieee32.V}
    (h1 : okWith (Sys.empty.run ops) (fun y => okWith (y.getItem (angular32 4 2) 0 0) fun u => sameVec u v) = true)
    (h2 : okWith (aloneRun (c := angular32 4 2) (Kiss32.new 0) 0 0 none ops) (itemIs v') = true) :
    ∃ (y : Sys) (s : Idx (angular32 4 2)), Sys.empty.run ops = .ok y ∧
      aloneRun (c := angular32 4 2) (Kiss32.new 0) 0 0 none ops = .ok (some s) ∧
      y.getItem (angular32 4 2) 0 0 = .ok v ∧ ∀ w, s.getItem w 0 = .ok v' := by
  obtain ⟨y, e1, h1⟩ := okWith_elim h1
  obtain ⟨u, e2, h1⟩ := okWith_elim h1
  obtain ⟨s, e3, h2⟩ := okWith_elim h2
  obtain ⟨s', rfl, h3⟩ := itemIs_elim h2
  exact ⟨y, s', e1, e3, e2.trans (congrArg Except.ok (sameVec_elim h1)), h3⟩

/-- **C67 as stated is false**: builder 0 makes indexes 0 and 1.  Item 0 of index 0 is (1,0).  Item 0 of index 1 is (0,1).  After one more
item, index 0 answers (0,1) for its item 0; alone it answers (1,0). -/
theorem C67_refuted : ∃ (y : Sys) (s : Idx (angular32 4 2)), Sys.empty.run mixedOps = .ok y ∧
    aloneRun (c := angular32 4 2) (Kiss32.new 0) 0 0 none mixedOps = .ok (some s) ∧
    y.getItem (angular32 4 2) 0 0 = .ok [zero32, one32] ∧ ∀ w, s.getItem w 0 = .ok [one32, zero32] :=
  shared_witness (by decide +kernel) (by decide +kernel)

/-- **C67 as stated is false**, second reason: `Close` of index 1 frees the allocator of index 0, which then loses its items when it
grows. -/
theorem C67_close_refuted : ∃ (y : Sys) (s : Idx (angular32 4 2)), Sys.empty.run closedOps = .ok y ∧
    aloneRun (c := angular32 4 2) (Kiss32.new 0) 0 0 none closedOps = .ok (some s) ∧
    y.getItem (angular32 4 2) 0 0 = .ok [zero32, zero32] ∧ ∀ w, s.getItem w 0 = .ok [one32, zero32] :=
  shared_witness (by decide +kernel) (by decide +kernel)

/-- With a builder each the hypotheses of `C67_own_builder_partial` hold, and index 0 keeps its item. -/
example : (∃ y s, Sys.empty.run apartOps = .ok y ∧ aloneRun (c := angular32 4 2) (Kiss32.new 0) 0 0 none apartOps = .ok (some s) ∧
      y.getItem (angular32 4 2) 0 0 = .ok [one32, zero32] ∧ ∀ w, s.getItem w 0 = .ok [one32, zero32]) ∧
    (allocsOf apartOps)[0]? = some 0 ∧ ∀ j, (allocsOf apartOps)[j]? = some 0 → j = 0 := by
  refine ⟨shared_witness (by decide +kernel) (by decide +kernel), rfl, fun j hj => ?_⟩
  match j, hj with
  | 0, _ => rfl
  | 1, h => cases h
  | n + 2, h => cases h

end Annoy
