import Verif.Proof.MakeTree
/-!
The whole of `Build` with one worker.
-/
namespace Annoy

/-- The added indexes in ascending order. -/
def liveOf {α : Type} (m : Nat → Option α) (n : Nat) : List Nat :=
  (List.range n).filter fun i => (m i).isSome

theorem mem_liveOf {α : Type} {m : Nat → Option α} {n i : Nat} :
    i ∈ liveOf m n ↔ i < n ∧ (m i).isSome := by simp [liveOf]

theorem liveOf_length_le {α : Type} (m : Nat → Option α) (n : Nat) : (liveOf m n).length ≤ n := by
  unfold liveOf
  have := List.length_filter_le (fun i => (m i).isSome) (List.range n)
  simpa using this

theorem liveOf_nodup {α : Type} (m : Nat → Option α) (n : Nat) : (liveOf m n).Nodup :=
  List.nodup_range.filter _

theorem liveOf_sorted {α : Type} (m : Nat → Option α) (n : Nat) :
    (liveOf m n).Pairwise (· < ·) :=
  List.Pairwise.filter _ List.pairwise_lt_range

namespace Idx
variable {c : Cfg}

/-- Which slots are items, as far as building is concerned. -/
structure Slots (s : Idx c) (m : Nat → Option (List c.N.V)) (n : Nat) : Prop where
  nd : ∀ i, i < n → ndAt c.L s.alloc.data i = if (m i).isSome then 1 else 0
  top : 0 < n → (m (n - 1)).isSome

theorem Slots.ext (hL : c.L.Ok c.C.sz) {s s' : Idx c} {m : Nat → Option (List c.N.V)} {n : Nat}
    (h : s.Slots m n) (hn : n ≤ s.nNodes) (he : Ext s s' n) : s'.Slots m n := by
  refine ⟨?_, h.top⟩
  intro i hi
  rw [← (he.sameNode (by omega)).nd hL]; exact h.nd i hi

theorem Slots.isItem {s : Idx c} {m : Nat → Option (List c.N.V)} {n : Nat} (h : s.Slots m n) {x : Nat}
    (hx : x ∈ liveOf m n) : IsItem c.L s.alloc.data n x := by
  obtain ⟨h1, h2⟩ := mem_liveOf.1 hx
  exact ⟨h1, by rw [h.nd x h1, if_pos h2]⟩

theorem Slots.lone (hL : c.L.Ok c.C.sz) {s : Idx c} {m : Nat → Option (List c.N.V)} {n : Nat}
    (h : s.Slots m n) (h1 : (liveOf m n).length = 1) (hK : c.L.K < n) : ndAt c.L s.alloc.data 0 = 0 := by
  have hKge := hL.K_ge
  rw [h.nd 0 (by omega)]
  by_contra hcon
  have h0 : (m 0).isSome := by
    by_contra hh; simp [hh] at hcon
  have m0 : 0 ∈ liveOf m n := mem_liveOf.2 ⟨by omega, h0⟩
  have m1 : n - 1 ∈ liveOf m n := mem_liveOf.2 ⟨by omega, h.top (by omega)⟩
  obtain ⟨j, hj⟩ := List.length_eq_one_iff.1 h1
  rw [hj] at m0 m1
  simp at m0 m1
  omega

theorem liveItems_eq {s : Idx c} {m : Nat → Option (List c.N.V)} {n : Nat}
    (hs : s.BInv n) (h : s.Slots m n) : liveItems c s.bmem s.nItems = .ok (liveOf m n) := by
  unfold liveItems
  rw [hs.nItems]
  have hb : 0 < n → s.bmem = s.alloc.block := by
    intro h0
    unfold bmem
    rw [hs.memOK.nodes (by have := hs.n_le; have := hs.le_size; omega)]
  have hm : (List.range n).mapM (fun i => do
      let a ← getNode c.L s.bmem i
      (Except.ok (i, Node.nDesc c.L s.bmem.get a) : Except Err (Nat × Nat)))
      = .ok ((List.range n).map fun i => (i, if (m i).isSome then 1 else 0)) := by
    apply mapM_ok
    intro i hi
    have hi' : i < n := List.mem_range.1 hi
    have hn := hs.n_le
    have hsz := hs.le_size
    rw [(hs.memOK.getNode (i := i) (by omega)).1]
    simp only [bind, Except.bind]
    rw [hb (by omega), ← h.nd i hi']
    rfl
  simp only [bind, Except.bind] at hm ⊢
  rw [hm]
  simp only [Except.ok.injEq]
  unfold liveOf
  rw [List.filter_map, List.map_map]
  have : (Prod.fst ∘ fun i => (i, if (m i).isSome = true then 1 else 0)) = (id : Nat → Nat) := by
    funext i; rfl
  rw [this, List.map_id]
  congr 1
  funext i
  simp only [Function.comp]
  by_cases hh : (m i).isSome = true
  · simp [hh]
  · simp [hh]

/-- The loop of `ThreadBuild`. -/
theorem threadLoop_spec (hc : c.WF) (rf tf n : Nat) (trees : Int) (m : Nat → Option (List c.N.V))
    (B : Nat) (hB : c.L.Fits B)
    (hBT : trees ≠ -1 → n + trees.toNat * cap (liveOf m n).length ≤ B)
    (hBM : trees = -1 → 2 * n + cap (liveOf m n).length ≤ B) (fuel : Nat) :
    ∀ (s : Idx c) (done : List Nat) (rs : List Nat) (s' : Idx c),
    s.BInv n → s.Slots m n → s.nNodes ≤ n + done.length * cap (liveOf m n).length → s.nNodes ≤ B →
    n + done.length ≤ s.nNodes →
    threadLoop rf tf trees fuel s done = .ok (rs, s') →
    Ext s s' n ∧ s'.nNodes ≤ B ∧ n + rs.length ≤ s'.nNodes ∧
    (trees = -1 → 2 * n ≤ s'.nNodes ∧ (rs.length ≤ max n done.length)) ∧
    (trees ≠ -1 → rs.length = max done.length trees.toNat) ∧
    (∃ new, rs = done ++ new ∧ (∀ r ∈ new, s.nNodes ≤ r ∧ r < s'.nNodes ∧
        c.L.RootCount n (ndAt c.L s'.alloc.data r)) ∧
      (new ≠ [] → new.getLast? = some (s'.nNodes - 1)) ∧ (new = [] → s'.nNodes = s.nNodes) ∧
      (∀ x, s.nNodes ≤ x → x < s'.nNodes → Downward c.L s'.alloc.data n x) ∧
      ((c.L.Deep s'.nNodes ∨ n ≤ c.L.K) → ∃ ts : List Tree, ts.map Tree.root = new ∧
        (∀ t ∈ ts, SidedRoot c s'.alloc.data n (liveOf m n) t) ∧
        (ts.flatMap Tree.inner).Perm (List.range' s.nNodes (s'.nNodes - s.nNodes)))) := by
  have hL := hc.layout
  have hp := hL.nodeSize_pos
  induction fuel with
  | zero => intro s done rs s' _ _ _ _ _ h; cases h
  | succ fuel ih =>
    intro s done rs s' hs hsl hcap hsB hge h
    have hcap1 : 1 ≤ cap (liveOf m n).length := le_max_left _ _
    unfold threadLoop at h
    rw [hs.nItems] at h
    by_cases hstop : (if trees = -1 then s.nNodes ≥ c.L.wrap (2 * n) else (done.length : Int) ≥ trees)
    · rw [if_pos hstop] at h
      cases h
      refine ⟨Ext.refl hs, hsB, hge, ?_, ?_, [], by simp, by simp, by simp, fun _ => rfl, fun x h1 h2 => by omega, ?_⟩
      · intro ht
        rw [if_pos ht] at hstop
        have h2n : 2 * n < c.L.range := by
          have := hBM ht
          have := hB.lt_range hp
          omega
        rw [c.L.wrap_eq h2n] at hstop
        exact ⟨hstop, le_max_right _ _⟩
      · intro ht
        rw [if_neg ht] at hstop
        omega
      · intro _
        exact ⟨[], rfl, by simp, by simp⟩
    · rw [if_neg hstop] at h
      have hgo := hstop
      have hli := liveItems_eq hs hsl
      rw [hs.nItems] at hli
      simp only [bind, Except.bind, hli] at h
      split at h
      · cases h
      · next v hv =>
        obtain ⟨root, s1⟩ := v
        dsimp only at h
        -- room for one more tree
        have hroom : s.nNodes + cap (liveOf m n).length ≤ B := by
          by_cases ht : trees = -1
          · rw [if_pos ht] at hgo
            have := hBM ht
            have h2n : 2 * n < c.L.range := by
              have := hB.lt_range hp
              omega
            rw [c.L.wrap_eq h2n] at hgo
            omega
          · rw [if_neg ht] at hgo
            have h1 := hBT ht
            have h2 : done.length + 1 ≤ trees.toNat := by omega
            have h3 := Nat.mul_le_mul_right (cap (liveOf m n).length) h2
            rw [Nat.add_mul] at h3
            omega
        obtain ⟨M1, M2, M3, M4, M8, -, M5⟩ := makeTree_spec hc rf n tf s (liveOf m n) true root s1 hs hv
          (hB.mono hroom) (liveOf_length_le m n) (by simp) (fun x hx => hsl.isItem hx)
          (fun _ h1 hK => hsl.lone hL h1 hK)
        obtain ⟨M6, M7, M9⟩ := M4 rfl
        have hsl1 := hsl.ext hL hs.n_le M1
        have e1 : (done ++ [root]).length = done.length + 1 := by simp
        obtain ⟨I1, I2, I3, I4, I5, new, I6, I7, I8, -, I10, I9⟩ := ih s1 (done ++ [root]) rs s' M1.inv hsl1
          (by rw [e1, Nat.add_mul]; omega) (by omega) (by omega) h
        have hmono := I1.nNodes
        have hnle := hs.n_le
        refine ⟨M1.trans I1, I2, I3, ?_, ?_, root :: new, by rw [I6]; simp, ?_, ?_, by simp, ?_, ?_⟩
        · intro ht
          obtain ⟨J1, J2⟩ := I4 ht
          refine ⟨J1, ?_⟩
          rw [if_pos ht] at hgo
          have h2n : 2 * n < c.L.range := by
            have := hBM ht
            have := hB.lt_range hp
            omega
          rw [c.L.wrap_eq h2n] at hgo
          omega
        · intro ht
          rw [I5 ht]
          rw [if_neg ht] at hgo
          omega
        · intro r hr
          rcases List.mem_cons.1 hr with hr | hr
          · subst hr
            refine ⟨M7, by omega, ?_⟩
            rw [← (I1.sameNode (by omega)).nd hL]
            exact M9
          · have := I7 r hr
            exact ⟨by omega, this.2⟩
        · intro _
          by_cases hnew : new = []
          · subst hnew
            have : s'.nNodes = s1.nNodes := by
              -- no further tree: the loop stopped at once
              have hrs : rs = done ++ [root] := by simpa using I6
              cases fuel with
              | zero => cases h
              | succ fuel =>
                unfold threadLoop at h
                by_cases hst : (if trees = -1 then s1.nNodes ≥ c.L.wrap (2 * s1.nItems)
                    else ((done ++ [root]).length : Int) ≥ trees)
                · rw [if_pos hst] at h
                  cases h; rfl
                · exfalso
                  rw [if_neg hst] at h
                  simp only [bind, Except.bind] at h
                  split at h
                  · cases h
                  · split at h
                    · cases h
                    · next v2 hv2 =>
                      obtain ⟨r2, s2⟩ := v2
                      have hlen : ∀ (f : Nat) (s3 s4 : Idx c) (d e : List Nat),
                          threadLoop rf tf trees f s3 d = .ok (e, s4) → d.length ≤ e.length := by
                        intro f
                        induction f with
                        | zero => intro s3 s4 d e hh; cases hh
                        | succ f ihf =>
                          intro s3 s4 d e hh
                          unfold threadLoop at hh
                          by_cases hst2 : (if trees = -1 then s3.nNodes ≥ c.L.wrap (2 * s3.nItems)
                              else (d.length : Int) ≥ trees)
                          · rw [if_pos hst2] at hh
                            cases hh; exact le_rfl
                          · rw [if_neg hst2] at hh
                            simp only [bind, Except.bind] at hh
                            split at hh
                            · cases hh
                            · split at hh
                              · cases hh
                              · have := ihf _ _ _ _ hh
                                simp at this; omega
                      have := hlen _ _ _ _ _ h
                      rw [hrs] at this
                      simp at this
            simp; omega
          · rw [List.getLast?_cons_of_ne_nil hnew]
            exact I8 hnew
        · intro x h1 h2
          by_cases hx : x < s1.nNodes
          · exact (M8 x h1 hx).congr hL (I1.sameNode hx)
          · exact I10 x (by omega) h2
        · intro hor
          obtain ⟨t, ht1, ht2, ht3⟩ := M5 rfl (hor.imp (fun h => h.mono hmono) id)
          obtain ⟨ts, hts1, hts2, hts3⟩ := I9 hor
          refine ⟨t :: ts, by simp [ht1, hts1], ?_, ?_⟩
          · intro u hu
            rcases List.mem_cons.1 hu with hu | hu
            · subst hu
              apply ht2.congr hL
              · intro k hk; exact I1.sameNode (by omega)
              · intro k hk
                have := List.mem_range'_1.1 (ht3.mem_iff.1 hk)
                exact I1.sameNode (by omega)
            · exact hts2 u hu
          · have e : List.range' s.nNodes (s'.nNodes - s.nNodes) =
                List.range' s.nNodes (s1.nNodes - s.nNodes) ++
                List.range' s1.nNodes (s'.nNodes - s1.nNodes) := by
              have q1 : s'.nNodes - s.nNodes = (s1.nNodes - s.nNodes) + (s'.nNodes - s1.nNodes) := by omega
              have q2 : s.nNodes + (s1.nNodes - s.nNodes) = s1.nNodes := by omega
              rw [q1, ← List.range'_append_1, q2]
            rw [e, List.flatMap_cons]
            exact ht3.append hts3

/-- Copying the roots. -/
theorem copyRoots_spec (hc : c.WF) (rs : List Nat) : ∀ (s : Idx c) (dst : Nat), s.MemOK →
    dst + rs.length ≤ s.nodesSize → (∀ r ∈ rs, r < dst) →
    ∃ s', copyRoots s rs dst = .ok s' ∧ (∃ d, s' = s.write d) ∧
      (∀ x, x < dst * c.L.nodeSize ∨ (dst + rs.length) * c.L.nodeSize ≤ x →
        s'.alloc.data x = s.alloc.data x) ∧
      (∀ k (hk : k < rs.length) j, j < c.L.nodeSize → s'.alloc.data ((dst + k) * c.L.nodeSize + j) =
        if j < c.L.f then s.alloc.data (rs[k] * c.L.nodeSize + j)
        else s.alloc.data ((dst + k) * c.L.nodeSize + j)) := by
  have hL := hc.layout
  have hfle := hL.f_le
  induction rs with
  | nil =>
    intro s dst hs _ _
    exact ⟨s, rfl, ⟨id, rfl⟩, fun _ _ => rfl, by simp⟩
  | cons r rs ih =>
    intro s dst hs hsz hr
    simp only [List.length_cons] at hsz
    have hrd := hr r (by simp)
    have g1 := (hs.getNode (i := dst) (by omega)).1
    have g2 := (hs.getNode (i := r) (by omega)).1
    have hw : c.L.wrap (dst + 1) = dst + 1 := by
      apply c.L.wrap_eq
      have h1 := hs.fits
      have h2 : s.nodesSize * 1 ≤ s.nodesSize * c.L.nodeSize :=
        Nat.mul_le_mul_left _ hL.nodeSize_pos
      have h3 : s.nodesSize < c.L.range := by omega
      by_contra hcon
      have : s.nodesSize = dst + 1 := by omega
      omega
    set s1 := s.write fun b => Node.copyNode b (dst * c.L.nodeSize) b (r * c.L.nodeSize) c.L.f with hs1
    have hm1 : s1.MemOK := ⟨hs.fits, hs.size, hs.nodes⟩
    have hd1 : ∀ x, (x < dst * c.L.nodeSize ∨ dst * c.L.nodeSize + c.L.f ≤ x) →
        s1.alloc.data x = s.alloc.data x := fun x hx => Node.copyNode_frame _ _ _ _ _ _ hx
    obtain ⟨s', e, ⟨d, hd⟩, h1, h2⟩ := ih s1 (dst + 1) hm1 (by
      show dst + 1 + rs.length ≤ s.nodesSize
      omega) (fun x hx => by have := hr x (by simp [hx]); omega)
    refine ⟨s', ?_, ?_, ?_, ?_⟩
    · unfold copyRoots
      rw [g1]
      simp only [bind, Except.bind]
      rw [g2]
      simp only
      rw [hw]
      exact e
    · exact ⟨d ∘ fun b => Node.copyNode b (dst * c.L.nodeSize) b (r * c.L.nodeSize) c.L.f, hd⟩
    · intro x hx
      simp only [List.length_cons] at hx
      have q : (dst + 1) * c.L.nodeSize = dst * c.L.nodeSize + c.L.nodeSize := by ring
      have q2 : (dst + 1) * c.L.nodeSize ≤ (dst + (rs.length + 1)) * c.L.nodeSize :=
        Nat.mul_le_mul_right _ (by omega)
      have q3 : dst + 1 + rs.length = dst + (rs.length + 1) := by omega
      rw [h1 x (by rw [q3]; omega), hd1 x (by omega)]
    · intro k hk j hj
      cases k with
      | zero =>
        simp only [Nat.add_zero, List.getElem_cons_zero]
        have q : (dst + 1) * c.L.nodeSize = dst * c.L.nodeSize + c.L.nodeSize := by ring
        rw [h1 _ (Or.inl (by omega))]
        split
        · next hjf => exact Node.copyNode_inside _ _ _ _ _ _ hjf
        · exact hd1 _ (Or.inr (by omega))
      | succ k =>
        simp only [List.length_cons, Nat.add_lt_add_iff_right] at hk
        have := h2 k hk j hj
        have q3 : dst + 1 + k = dst + (k + 1) := by omega
        rw [q3] at this
        rw [this]
        simp only [List.getElem_cons_succ]
        have hrk := hr rs[k] (by simp)
        have q4 : (rs[k] + 1) * c.L.nodeSize ≤ dst * c.L.nodeSize := Nat.mul_le_mul_right _ (by omega)
        have q5 : (dst + 1) * c.L.nodeSize ≤ (dst + (k + 1)) * c.L.nodeSize :=
          Nat.mul_le_mul_right _ (by omega)
        rw [Nat.add_mul] at q4 q5
        rw [hd1 _ (Or.inl (by omega)), hd1 _ (Or.inr (by omega))]

/-- The slack between the child slots and the vector is what `PreProcess` may change. -/
theorem preProcess_frame (hc : c.WF) {s : Idx c} (hs : s.MemOK) {n : Nat} (hn : n ≤ s.nodesSize)
    (b : Bytes) (i j : Nat) (hj : j < c.L.nodeSize) (hj' : j < 3 * c.L.szIX ∨ c.L.offV ≤ j) :
    c.D.preProcess b n (i * c.L.nodeSize + j) = b (i * c.L.nodeSize + j) := by
  apply hc.preProcess
  intro i' hi'
  rw [(hs.getNode (i := i') (by omega)).2]
  have hoff : c.L.offV ≤ c.L.nodeSize := by have := hc.layout.size_eq; omega
  by_cases he : i = i'
  · subst he; omega
  · have := node_ne he hj
    omega

theorem preProcess_zero (hc : c.WF) {s : Idx c} (hs : s.MemOK) {n : Nat} (hn : n ≤ s.nodesSize)
    (b : Bytes) (x : Nat) (hx : n * c.L.nodeSize ≤ x) : c.D.preProcess b n x = b x := by
  apply hc.preProcess
  intro i hi
  rw [(hs.getNode (i := i) (by omega)).2]
  have hoff : c.L.offV ≤ c.L.nodeSize := by have := hc.layout.size_eq; omega
  have := Nat.mul_le_mul_right c.L.nodeSize hi
  rw [Nat.succ_mul] at this
  omega

/-- The item slots are what `PreProcess` made of slots `b0` that hold the added items. -/
def PreDone (c : Cfg) (b : Bytes) (m : Nat → Option (List c.N.V)) (n : Nat) : Prop :=
  ∃ b0 : Bytes, (∀ i v, m i = some v → ItemAt c b0 (i * c.L.nodeSize) v) ∧
    (∀ i, i < n → m i = none → ∀ j, j < c.L.nodeSize → b0 (i * c.L.nodeSize + j) = 0) ∧
    ∀ x, x < n * c.L.nodeSize → b x = c.D.preProcess b0 n x

theorem PreDone.congr {b b' : Bytes} {m : Nat → Option (List c.N.V)} {n : Nat} (h : PreDone c b m n)
    (he : ∀ x, x < n * c.L.nodeSize → b' x = b x) : PreDone c b' m n := by
  obtain ⟨b0, h1, h2, h3⟩ := h
  exact ⟨b0, h1, h2, fun x hx => (he x hx).trans (h3 x hx)⟩

/-- What a finished `Build` guarantees.  `N0` is the number of nodes before the root copies. -/
structure Built (s : Idx c) (m : Nat → Option (List c.N.V)) (n N0 : Nat) : Prop where
  memOK : s.MemOK
  loaded : s.loaded = false
  built : s.built = true
  nItems : s.nItems = n
  n_le : n ≤ N0
  nNodes : s.nNodes = N0 + s.roots.length
  le_size : s.nNodes ≤ s.nodesSize
  zero : ∀ x, s.nNodes * c.L.nodeSize ≤ x → s.alloc.data x = 0
  bound : ∀ i v, m i = some v → i < n
  top : 0 < n → (m (n - 1)).isSome
  items : ∀ i v, m i = some v → ItemAt c s.alloc.data (i * c.L.nodeSize) v
  gaps : ∀ i, i < n → m i = none → ∀ j, j < c.L.nodeSize → (j < 3 * c.L.szIX ∨ c.L.offV ≤ j) →
    s.alloc.data (i * c.L.nodeSize + j) = 0
  roots_lt : ∀ r ∈ s.roots, n ≤ r ∧ r < N0
  last : s.roots ≠ [] → N0 - 1 ∈ s.roots
  noRoots : s.roots = [] → N0 = n
  copies : ∀ k (hk : k < s.roots.length) j, j < c.L.nodeSize →
    s.alloc.data ((N0 + k) * c.L.nodeSize + j) =
      if j < c.L.f then s.alloc.data (s.roots[k] * c.L.nodeSize + j) else 0
  counted : ∀ r ∈ s.roots, c.L.RootCount n (ndAt c.L s.alloc.data r)
  downward : ∀ x, n ≤ x → x < N0 → Downward c.L s.alloc.data n x
  sided : (c.L.Deep N0 ∨ n ≤ c.L.K) → ∃ ts : List Tree, ts.map Tree.root = s.roots ∧
    (∀ t ∈ ts, SidedRoot c s.alloc.data n (liveOf m n) t) ∧
    (ts.flatMap Tree.inner).Perm (List.range' n (N0 - n))
  nns : countNNS c s.bmem n s.nNodes = .ok s.batchMaxNNS
  pre : PreDone c s.alloc.data m n

/-- The trees without their reasons. -/
theorem Built.forest {s : Idx c} {m : Nat → Option (List c.N.V)} {n N0 : Nat} (B : s.Built m n N0)
    (h : c.L.Deep N0 ∨ n ≤ c.L.K) : ∃ ts : List Tree, ts.map Tree.root = s.roots ∧
      (∀ t ∈ ts, RootTree c.L s.alloc.data n (liveOf m n) t) ∧
      (ts.flatMap Tree.inner).Perm (List.range' n (N0 - n)) := by
  obtain ⟨ts, h1, h2, h3⟩ := B.sided h
  exact ⟨ts, h1, fun t ht => (h2 t ht).1, h3⟩

/-- Room needed by `Build`. -/
def buildBound (n : Nat) (trees : Int) : Nat :=
  if trees = -1 then 5 * n + 1 else n + trees.toNat * (2 * n + 2)

theorem ItemAt.preProcess (hc : c.WF) {s : Idx c} (hs : s.MemOK) {n : Nat} (hn : n ≤ s.nodesSize)
    {b : Bytes} {i : Nat} {v : List c.N.V} (h : ItemAt c b (i * c.L.nodeSize) v) :
    ItemAt c (c.D.preProcess b n) (i * c.L.nodeSize) v := by
  have hL := hc.layout
  have h3 := hL.three_le
  have hoff := hL.offV_ge
  have hsz := hL.size_eq
  have hf := fun j h1 h2 => preProcess_frame hc hs hn b i j h1 h2
  constructor
  · rw [← h.nDesc]; exact Node.nDesc_congr fun j hj => hf j (by omega) (Or.inl (by omega))
  · rw [← h.vec]; apply Node.vec_congr; intro j hj
    have := hf (c.L.offV + j) (by omega) (Or.inr (by omega))
    simpa [Nat.add_assoc] using this
  · intro j h1 h2; rw [hf j (by omega) (Or.inl h2)]; exact h.head j h1 h2

theorem countNNS_ok {s : Idx c} (hs : s.MemOK) {N : Nat} (hN : N ≤ s.nodesSize) (n : Nat) :
    ∃ k, countNNS c s.bmem n N = .ok k := by
  unfold countNNS
  have : (List.range N).mapM (nnsOf c s.bmem n) = .ok ((List.range N).map fun i =>
      (fun nd => if nd = 1 ∧ i < n then 1 else if nd ≤ c.L.K then nd else 0)
        (Node.nDesc c.L s.bmem.get (i * c.L.nodeSize))) := by
    apply mapM_ok
    intro i hi
    have hi' := List.mem_range.1 hi
    unfold nnsOf
    rw [(hs.getNode (i := i) (by omega)).1]
    rfl
  rw [this]
  exact ⟨_, rfl⟩

/-- The state between the trees and the root copies, whoever built the trees. -/
structure Grown (s : Idx c) (m : Nat → Option (List c.N.V)) (n : Nat) : Prop where
  inv : s.BInv n
  bound : ∀ i v, m i = some v → i < n
  top : 0 < n → (m (n - 1)).isSome
  items : ∀ i v, m i = some v → ItemAt c s.alloc.data (i * c.L.nodeSize) v
  gaps : ∀ i, i < n → m i = none → ∀ j, j < c.L.nodeSize → (j < 3 * c.L.szIX ∨ c.L.offV ≤ j) →
    s.alloc.data (i * c.L.nodeSize + j) = 0
  roots_lt : ∀ r ∈ s.roots, n ≤ r ∧ r < s.nNodes
  last : s.roots ≠ [] → s.nNodes - 1 ∈ s.roots
  noRoots : s.roots = [] → s.nNodes = n
  counted : ∀ r ∈ s.roots, c.L.RootCount n (ndAt c.L s.alloc.data r)
  downward : ∀ x, n ≤ x → x < s.nNodes → Downward c.L s.alloc.data n x
  forest : (c.L.Deep s.nNodes ∨ n ≤ c.L.K) → ∃ ts : List Tree, ts.map Tree.root = s.roots ∧
    (∀ t ∈ ts, SidedRoot c s.alloc.data n (liveOf m n) t) ∧
    (ts.flatMap Tree.inner).Perm (List.range' n (s.nNodes - n))
  pre : PreDone c s.alloc.data m n

theorem node_lt {i n j z : Nat} (hi : i < n) (hj : j < z) : i * z + j < n * z := by
  have := Nat.mul_le_mul_right z hi
  rw [Nat.succ_mul] at this
  omega

/-- The part of `Build` before the workers. -/
theorem buildStart_spec (hc : c.WF) {s : Idx c} {m : Nat → Option (List c.N.V)} {n : Nat}
    (hs : s.ItemInv m n) (hb : s.built = false) :
    ∃ s1, buildStart s = .ok s1 ∧ s1.BInv n ∧ s1.Slots m n ∧ s1.nNodes = n ∧ s1.built = false ∧
      s1.roots = s.roots ∧ s1.rng = s.rng ∧
      (∀ i v, m i = some v → ItemAt c s1.alloc.data (i * c.L.nodeSize) v) ∧
      (∀ i, i < n → m i = none → ∀ j, j < c.L.nodeSize →
        (j < 3 * c.L.szIX ∨ c.L.offV ≤ j) → s1.alloc.data (i * c.L.nodeSize + j) = 0) ∧
      PreDone c s1.alloc.data m n := by
  have hL := hc.layout
  have hp := hL.nodeSize_pos
  have h3 := hL.three_le
  set s1 : Idx c := { (s.write fun b => c.D.preProcess b s.nItems) with nNodes := s.nItems } with hs1
  have hnI : s.nItems = n := hs.nItems
  have hd1 : s1.alloc.data = c.D.preProcess s.alloc.data n := by
    rw [hs1, hnI]; rfl
  have hinv1 : s1.BInv n := by
    refine ⟨⟨hs.memOK.fits, hs.memOK.size, hs.memOK.nodes⟩, hs.loaded, hnI, ?_, ?_, ?_⟩
    · show n ≤ s.nItems; omega
    · show s.nItems ≤ s.nodesSize; rw [hnI]; exact hs.n_le
    · intro x hx
      have hx' : n * c.L.nodeSize ≤ x := by
        have : s1.nNodes = n := hnI
        rw [this] at hx; exact hx
      rw [hd1, preProcess_zero hc hs.memOK hs.n_le _ _ hx']
      exact hs.zero x hx'
  have hitems1 : ∀ i v, m i = some v → ItemAt c s1.alloc.data (i * c.L.nodeSize) v := by
    intro i v hi
    rw [hd1]
    exact ItemAt.preProcess hc hs.memOK hs.n_le (hs.items i v hi)
  have hgaps1 : ∀ i, i < n → m i = none → ∀ j, j < c.L.nodeSize →
      (j < 3 * c.L.szIX ∨ c.L.offV ≤ j) → s1.alloc.data (i * c.L.nodeSize + j) = 0 := by
    intro i hi hm j hj hj'
    rw [hd1, preProcess_frame hc hs.memOK hs.n_le _ _ _ hj hj']
    exact hs.gaps i hi hm j hj
  have hsl1 : s1.Slots m n := by
    refine ⟨?_, hs.top⟩
    intro i hi
    cases hmi : m i with
    | some v => simp only [Option.isSome_some, if_true]; exact (hitems1 i v hmi).nDesc
    | none =>
      simp only [Option.isSome_none, Bool.false_eq_true, if_false]
      exact readLE_zero _ _ _ fun j hj => hgaps1 i hi hmi j (by omega) (Or.inl (by omega))
  refine ⟨s1, ?_, hinv1, hsl1, hnI, hb, rfl, rfl, hitems1, hgaps1,
    s.alloc.data, hs.items, hs.gaps, fun x _ => by rw [hd1]⟩
  unfold buildStart
  rw [hs.loaded, hb]
  rfl

/-- The part of `Build` after the workers: root copies and the context size. -/
theorem buildFinish_spec (hc : c.WF) {s2 : Idx c} {m : Nat → Option (List c.N.V)} {n : Nat}
    (G : s2.Grown m n) (hfit2 : c.L.Fits (s2.nNodes + s2.roots.length)) :
    ∃ s', buildFinish s2 = .ok s' ∧ s'.Built m n s2.nNodes ∧ s'.roots = s2.roots ∧
      s'.rng = s2.rng := by
  have hL := hc.layout
  have hp := hL.nodeSize_pos
  have h3 := hL.three_le
  have hw : c.L.wrap (s2.nNodes + s2.roots.length) = s2.nNodes + s2.roots.length :=
    c.L.wrap_eq (hfit2.lt_range hp)
  have hz3 : ∀ x, s2.nNodes * c.L.nodeSize ≤ x → s2.alloc.data x = 0 := G.inv.zero
  obtain ⟨hm4, hn4, hn4', hd4, sz, nd, al, he4⟩ := allocateSize_spec hL G.inv.memOK hfit2 hz3
    (Nat.mul_le_mul_right c.L.nodeSize G.inv.le_size)
  generalize hrs : s2.roots = rs at *
  generalize hs4 : s2.allocateSize (s2.nNodes + rs.length) = s4 at *
  have e3 : s4.roots = rs := by rw [he4]
  have e4 : s4.nNodes = s2.nNodes := by rw [he4]
  obtain ⟨s5, C1, ⟨d, C2⟩, C3, C4⟩ := copyRoots_spec hc rs s4 s2.nNodes hm4 hn4
    (fun r hr => (G.roots_lt r (by rw [hrs]; exact hr)).2)
  have e5 : s5.nNodes = s2.nNodes := by rw [C2]; exact e4
  have e6 : s5.roots = rs := by rw [C2]; exact e3
  have e7 : s5.nodesSize = s4.nodesSize := by rw [C2]; rfl
  set s6 : Idx c := { s5 with nNodes := s2.nNodes + rs.length, roots := rs, built := true } with hs6
  have hm6 : s6.MemOK := by
    have : s5.MemOK := by rw [C2]; exact ⟨hm4.fits, hm4.size, hm4.nodes⟩
    exact ⟨this.fits, this.size, this.nodes⟩
  have hnI6 : s6.nItems = n := by
    show s5.nItems = n
    rw [C2]; show s4.nItems = n
    rw [he4]; exact G.inv.nItems
  obtain ⟨k, hk⟩ := countNNS_ok (c := c) hm6 (N := s2.nNodes + rs.length)
    (by show _ ≤ s5.nodesSize; rw [e7]; exact hn4) n
  have hk' : countNNS c s6.bmem s6.nItems (s2.nNodes + rs.length) = .ok k := by rw [hnI6]; exact hk
  have hrun : buildFinish s2 = .ok { s6 with batchMaxNNS := k } := by
    unfold buildFinish
    dsimp only
    rw [hrs, hw, hs4, e3, e4, C1]
    simp only [bind, Except.bind]
    rw [e5, e6, hw]
    erw [hk']
  have hpre : ∀ x, x < s2.nNodes * c.L.nodeSize → s6.alloc.data x = s2.alloc.data x := by
    intro x hx
    show s5.alloc.data x = _
    rw [C3 x (Or.inl hx), hd4]
  have hnn2 := G.inv.n_le
  have hpre1 : ∀ x, x < n * c.L.nodeSize → s6.alloc.data x = s2.alloc.data x := by
    intro x hx
    have : n * c.L.nodeSize ≤ s2.nNodes * c.L.nodeSize := Nat.mul_le_mul_right _ hnn2
    rw [hpre x (by omega)]
  have hnode : ∀ i, i < n → ∀ j, j < c.L.nodeSize → i * c.L.nodeSize + j < n * c.L.nodeSize :=
    fun i hi j hj => node_lt hi hj
  refine ⟨_, hrun, ⟨⟨hm6.fits, hm6.size, hm6.nodes⟩, ?_, rfl, hnI6, hnn2, ?_, ?_, ?_, G.bound, G.top,
    ?_, ?_, ?_, ?_, ?_, ?_, ?_, ?_, ?_, ?_, G.pre.congr hpre1⟩, rfl, ?_⟩
  · show s5.loaded = false
    rw [C2]; show s4.loaded = false
    rw [he4]; exact G.inv.loaded
  · rfl
  · show s2.nNodes + rs.length ≤ s5.nodesSize
    rw [e7]; exact hn4
  · intro x hx
    have hx' : (s2.nNodes + rs.length) * c.L.nodeSize ≤ x := hx
    show s5.alloc.data x = 0
    rw [C3 x (Or.inr hx'), hd4]
    apply hz3
    have : s2.nNodes * c.L.nodeSize ≤ (s2.nNodes + rs.length) * c.L.nodeSize :=
      Nat.mul_le_mul_right _ (by omega)
    omega
  · intro i v hi
    exact (G.items i v hi).congr hL fun j hj => hpre1 _ (hnode i (G.bound i v hi) j hj)
  · intro i hi hmi j hj hj'
    show s6.alloc.data _ = 0
    rw [hpre1 _ (hnode i hi j hj)]
    exact G.gaps i hi hmi j hj hj'
  · intro r hr
    exact G.roots_lt r (by rw [hrs]; exact hr)
  · intro hne
    have := G.last (by rw [hrs]; exact hne)
    rw [hrs] at this
    exact this
  · intro hne
    exact G.noRoots (by rw [hrs]; exact hne)
  · intro k' hk2 j hj
    have hk3 : k' < rs.length := hk2
    have := C4 k' hk3 j hj
    show s5.alloc.data _ = if j < c.L.f then s5.alloc.data (rs[k'] * _ + j) else 0
    rw [this]
    split
    · have hlt := (G.roots_lt rs[k'] (by rw [hrs]; simp)).2
      have q : (rs[k'] + 1) * c.L.nodeSize ≤ s2.nNodes * c.L.nodeSize := Nat.mul_le_mul_right _ hlt
      rw [Nat.add_mul] at q
      rw [C3 _ (Or.inl (by omega))]
    · rw [hd4]
      apply hz3
      have : s2.nNodes * c.L.nodeSize ≤ (s2.nNodes + k') * c.L.nodeSize :=
        Nat.mul_le_mul_right _ (by omega)
      omega
  · intro r hr
    have hlt := (G.roots_lt r (by rw [hrs]; exact hr)).2
    have e : SameNode c.L s2.alloc.data s6.alloc.data r := fun j hj => (hpre _ (node_lt hlt hj)).symm
    show c.L.RootCount n (ndAt c.L s6.alloc.data r)
    rw [← e.nd hL]
    exact G.counted r (by rw [hrs]; exact hr)
  · intro x h1 h2
    refine (G.downward x h1 h2).congr hL ?_
    intro j hj
    symm
    apply hpre
    exact node_lt h2 hj
  · intro hor
    obtain ⟨ts, F1, F2, F3⟩ := G.forest hor
    refine ⟨ts, by rw [F1, hrs], ?_, F3⟩
    intro t ht
    apply (F2 t ht).congr hL
    · intro i hi j hj
      symm
      apply hpre
      have := hnode i hi j hj
      have : n * c.L.nodeSize ≤ s2.nNodes * c.L.nodeSize := Nat.mul_le_mul_right _ hnn2
      omega
    · intro i hi
      have hmem : i ∈ ts.flatMap Tree.inner := List.mem_flatMap.2 ⟨t, ht, hi⟩
      have hlt := List.mem_range'_1.1 (F3.mem_iff.1 hmem)
      intro j hj
      symm
      apply hpre
      exact node_lt (by omega) hj
  · exact hk
  · show s5.rng = _
    rw [C2]; show s4.rng = _
    rw [he4]

/-- The whole of `Build`. -/
theorem build_spec (hc : c.WF) {s : Idx c} {m : Nat → Option (List c.N.V)} {n : Nat}
    (hs : s.ItemInv m n) (hb : s.built = false) (hr : s.roots = []) (rf tf lf : Nat) (trees : Int)
    (hfit : c.L.Fits (buildBound n trees)) {s' : Idx c} (h : build rf tf lf trees s = .ok s') :
    ∃ N0, s'.Built m n N0 ∧ (trees = -1 → 2 * n ≤ N0) ∧
      (trees ≠ -1 → s'.roots.length = trees.toNat) ∧ s'.nNodes ≤ buildBound n trees ∧
      (s'.roots ≠ [] → s'.roots.getLast? = some (N0 - 1)) := by
  have hL := hc.layout
  have hp := hL.nodeSize_pos
  have h3 := hL.three_le
  obtain ⟨s1, hstart, hinv1, hsl1, hn1, _, hr1, _, hitems1, hgaps1, hpre⟩ := buildStart_spec hc hs hb
  unfold build at h
  simp only [bind, Except.bind, threadBuild, hstart] at h
  split at h
  · cases h
  · next v hv =>
    split at hv
    · cases hv
    · next u hu =>
      obtain ⟨rs, s2⟩ := u
      dsimp only at hv
      cases hv
      -- sizes
      have hlive := liveOf_length_le m n
      have hcapn : cap (liveOf m n).length ≤ 2 * n + 1 := by unfold cap; omega
      have hcap1 : 1 ≤ cap (liveOf m n).length := le_max_left _ _
      set B := if trees = -1 then 2 * n + cap (liveOf m n).length
        else n + trees.toNat * cap (liveOf m n).length with hB
      have hBle : B ≤ buildBound n trees := by
        rw [hB]; unfold buildBound
        split
        · unfold cap; omega
        · have : trees.toNat * cap (liveOf m n).length ≤ trees.toNat * (2 * n + 2) :=
            Nat.mul_le_mul_left _ (by omega)
          omega
      have hfitB : c.L.Fits B := hfit.mono hBle
      have hnB : n ≤ B := by rw [hB]; split <;> omega
      obtain ⟨T1, T2, T3, T4, T5, new, T6, T7, T8, T9, T11, T10⟩ := threadLoop_spec hc rf tf n trees m B hfitB
        (fun ht => by rw [hB, if_neg ht]) (fun ht => by rw [hB, if_pos ht]) lf s1 [] rs s2 hinv1 hsl1
        (by simp; omega) (by omega) (by simp; omega) hu
      simp only [List.nil_append] at T6
      subst T6
      have hroots2 : s2.roots = [] := by rw [T1.roots, hr1]; exact hr
      -- the root copies
      simp only [hroots2, List.nil_append] at h
      have hfin : s2.nNodes + rs.length ≤ buildBound n trees := by
        by_cases ht : trees = -1
        · have h4 := (T4 ht).2
          simp at h4
          rw [hB, if_pos ht] at T2
          unfold buildBound
          rw [if_pos ht]
          unfold cap at T2
          omega
        · have h5 := T5 ht
          simp at h5
          rw [hB, if_neg ht] at T2
          unfold buildBound
          rw [if_neg ht, h5]
          have : trees.toNat * cap (liveOf m n).length ≤ trees.toNat * (2 * n + 1) :=
            Nat.mul_le_mul_left _ (by omega)
          have e : trees.toNat * (2 * n + 2) = trees.toNat * (2 * n + 1) + trees.toNat := by ring
          omega
      have hfit2 : c.L.Fits (s2.nNodes + rs.length) := hfit.mono hfin
      have hpre1 : ∀ x, x < n * c.L.nodeSize → s2.alloc.data x = s1.alloc.data x := by
        intro x hx
        rw [T1.frame x (by rw [hn1]; exact hx)]
      have G : Grown ({ s2 with roots := rs } : Idx c) m n := by
        refine ⟨⟨⟨T1.inv.memOK.fits, T1.inv.memOK.size, T1.inv.memOK.nodes⟩, T1.inv.loaded,
          T1.inv.nItems, T1.inv.n_le, T1.inv.le_size, T1.inv.zero⟩, hs.bound, hs.top, ?_, ?_, ?_, ?_, ?_, ?_, ?_, ?_, hpre.congr hpre1⟩
        · intro i v hi
          exact (hitems1 i v hi).congr hL fun j hj => hpre1 _ (node_lt (hs.bound i v hi) hj)
        · intro i hi hmi j hj hj'
          show s2.alloc.data _ = 0
          rw [hpre1 _ (node_lt hi hj)]
          exact hgaps1 i hi hmi j hj hj'
        · intro r hr
          have := T7 r hr
          refine ⟨by omega, this.2.1⟩
        · intro hne
          exact List.mem_of_getLast? (T8 hne)
        · intro hne
          exact (T9 hne).trans hn1
        · exact fun r hr => (T7 r hr).2.2
        · rw [hn1] at T11; exact T11
        · rw [hn1] at T10; exact T10
      obtain ⟨s6, F1, F2, F3, _⟩ := buildFinish_spec hc G hfit2
      rw [F1] at h
      cases h
      refine ⟨s2.nNodes, F2, ?_, ?_, ?_, ?_⟩
      · intro ht; exact (T4 ht).1
      · intro ht
        have := T5 ht
        rw [F3]
        simpa using this
      · rw [F2.nNodes, F3]; exact hfin
      · rw [F3]
        exact T8

end Idx
end Annoy
