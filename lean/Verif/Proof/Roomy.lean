import Verif.Proof.Swap
/-!
# Building with more memory

`Build` does the same when the index has room for all the nodes from the start: how often and when the memory was enlarged does not show in the nodes.
-/
namespace Annoy
namespace Idx
variable {c : Cfg}

/-- `s` with more memory than any number of nodes needs. -/
def roomy (s : Idx c) : Idx c :=
  { s with nodesSize := c.L.range, nodes := .build, alloc := ⟨true, 2 * c.L.range, s.alloc.data⟩ }

theorem roomy_bmem (s : Idx c) : s.roomy.bmem = ⟨2 * c.L.range, s.alloc.data⟩ := rfl

theorem wrap_lt (hL : c.L.Ok c.C.sz) (x : Nat) : c.L.wrap x < c.L.range := Nat.mod_lt _ hL.range_pos

theorem roomy_getNode (hL : c.L.Ok c.C.sz) (s : Idx c) (i : Nat) : getNode c.L s.roomy.bmem i = .ok (c.L.addr i) := by
  apply getNode_eq
  rw [roomy_bmem]
  have h1 : c.L.addr i < c.L.range := wrap_lt hL _
  have h2 := hL.size_lt
  show c.L.addr i + c.L.nodeSize ≤ 2 * c.L.range
  omega

/-- With all the memory there is nothing to allocate. -/
theorem roomy_allocateSize {s : Idx c} (hz : ∀ x, s.alloc.size ≤ x → s.alloc.data x = 0) {k : Nat} (hk : k ≤ c.L.range) :
    s.roomy.allocateSize k = (s.allocateSize k).roomy := by
  unfold allocateSize
  rw [if_neg (by show ¬ k > c.L.range; omega)]
  split
  · unfold roomy
    dsimp only
    congr 2
    unfold Alloc.reallocate
    split
    · rfl
    · refine Bytes.ext' fun x => ?_
      show s.alloc.data x = if x < s.alloc.size then s.alloc.data x else 0
      split
      · rfl
      · exact hz x (by omega)
  · rfl

theorem BInv.out {n : Nat} {s : Idx c} (hs : s.BInv n) : ∀ x, s.alloc.size ≤ x → s.alloc.data x = 0 := fun x hx =>
  hs.zero x (((Nat.mul_le_mul_right _ hs.le_size).trans hs.memOK.size).trans hx)

/-- What the memory of an index under construction holds. -/
theorem BInv.bmem_get {n : Nat} {s : Idx c} (hs : s.BInv n) : s.bmem.get = s.alloc.data := by
  unfold bmem
  by_cases h0 : 0 < s.nodesSize
  · rw [hs.memOK.nodes h0]; rfl
  · have h1 := hs.le_size
    have h2 : s.alloc.data = zeros := Bytes.ext' fun x => hs.zero x (by
      rw [show s.nNodes = 0 by omega]; omega)
    cases s.nodes
    all_goals first | rfl | exact h2.symm

theorem trySplit_same {mem mem' : Block} (hg : mem'.get = mem.get) {ids : List Nat} (h : ∀ j ∈ ids, getNode c.L mem' j = getNode c.L mem j)
    (addrs : List Nat) (k : Nat) : ∀ (m : Bytes) (l rt : List Nat) (r : c.R.σ),
    trySplit c mem' addrs ids k m l rt r = trySplit c mem addrs ids k m l rt r := by
  induction k with
  | zero => intro m l rt r; rfl
  | succ k ih =>
    intro m l rt r
    unfold trySplit
    rw [hg]
    cases e : c.D.createSplit mem.get addrs r m with
    | error x => rfl
    | ok x =>
      obtain ⟨m', r'⟩ := x
      simp only [bind, Except.bind]
      rw [assignSides_congr (f := sideOfItem c mem' m') (g := sideOfItem c mem m') (ids := ids) fun j hj r => by
        unfold sideOfItem
        rw [h j hj, hg]]
      cases assignSides (sideOfItem c mem m') ids r' with
      | error x => rfl
      | ok x =>
        obtain ⟨l', rt', r2⟩ := x
        dsimp only
        rw [ih]

theorem BInv.roomy_node (hL : c.L.Ok c.C.sz) {n : Nat} {s : Idx c} (hs : s.BInv n) {i : Nat} (hi : i < s.nNodes) :
    getNode c.L s.roomy.bmem i = getNode c.L s.bmem i := by
  have h := hs.memOK.getNode (i := i) (by have := hs.le_size; omega)
  rw [roomy_getNode hL, h.1, h.2]

theorem chooseSplit_roomy (hL : c.L.Ok c.C.sz) {n : Nat} {s : Idx c} (hs : s.BInv n) {rf : Nat} {ids : List Nat} (hids : ∀ x ∈ ids, x < s.nNodes) {m l rt s'}
    (h : chooseSplit rf s ids = .ok (m, l, rt, s')) : chooseSplit rf s.roomy ids = .ok (m, l, rt, s'.roomy) := by
  have hget : ∀ x ∈ ids, getNode c.L s.roomy.bmem x = getNode c.L s.bmem x := fun x hx => hs.roomy_node hL (hids x hx)
  unfold chooseSplit at h ⊢
  rw [mapM_same hget]
  cases e : ids.mapM (getNode c.L s.bmem) with
  | error x => rw [e] at h; cases h
  | ok addrs =>
    rw [e] at h
    simp only [bind, Except.bind] at h ⊢
    rw [trySplit_same (mem := s.bmem) (by rw [hs.bmem_get]; rfl) hget]
    rw [show s.roomy.rng = s.rng from rfl]
    cases e3 : trySplit c s.bmem addrs ids 3 zeros [] [] s.rng with
    | error x => rw [e3] at h; cases h
    | ok x =>
      obtain ⟨m1, l1, rt1, r1⟩ := x
      rw [e3] at h
      dsimp only at h ⊢
      cases e4 : randomize c ids rf m1 l1 rt1 r1 with
      | error x => rw [e4] at h; cases h
      | ok x =>
        obtain ⟨m2, l2, rt2, r2⟩ := x
        rw [e4] at h
        cases h
        rfl

theorem takeNode_roomy (hL : c.L.Ok c.C.sz) {n : Nat} {s : Idx c} (hs : s.BInv n) :
    s.roomy.takeNode = (s.takeNode.1, s.takeNode.2.roomy) := by
  unfold takeNode
  rw [show s.roomy.nNodes = s.nNodes from rfl, roomy_allocateSize hs.out (wrap_lt hL _).le]
  rfl

theorem takeWrite_roomy (hL : c.L.Ok c.C.sz) {n : Nat} {s : Idx c} (hs : s.BInv n) (hf : c.L.Fits (s.nNodes + 1))
    {g : Idx c → Nat → Bytes → Bytes} (hg : ∀ s' b a, g (roomy s') a b = g s' a b) {i : Nat} {s' : Idx c}
    (h : (do
      let a ← getNode c.L s.takeNode.2.bmem s.takeNode.1
      Except.ok (s.takeNode.1, s.takeNode.2.write (g s.takeNode.2 a)) : Except Err (Nat × Idx c)) = .ok (i, s')) :
    (do
      let a ← getNode c.L s.roomy.takeNode.2.bmem s.roomy.takeNode.1
      Except.ok (s.roomy.takeNode.1, s.roomy.takeNode.2.write (g s.roomy.takeNode.2 a)) : Except Err (Nat × Idx c)) = .ok (i, s'.roomy) := by
  rw [takeNode_roomy hL hs]
  obtain ⟨t1, t2, t3, _⟩ := takeNode_spec hL hs hf
  dsimp only
  rw [t2.roomy_node hL (by omega)]
  have hg1 := t2.memOK.getNode (i := s.takeNode.1) (by rw [t1]; have := t2.le_size; omega)
  rw [hg1.1] at h ⊢
  simp only [bind, Except.bind, Except.ok.injEq, Prod.mk.injEq] at h ⊢
  refine ⟨h.1, ?_⟩
  rw [← h.2]
  unfold write
  rw [show g s.takeNode.2.roomy (s.takeNode.1 * c.L.nodeSize) = g s.takeNode.2 (s.takeNode.1 * c.L.nodeSize) from funext fun b => hg _ _ _]
  rfl

theorem makeBucket_roomy (hL : c.L.Ok c.C.sz) {n : Nat} {s : Idx c} (hs : s.BInv n) (hf : c.L.Fits (s.nNodes + 1)) {ids : List Nat}
    {isRoot : Bool} {i : Nat} {s' : Idx c} (h : makeBucket s ids isRoot = .ok (i, s')) :
    makeBucket s.roomy ids isRoot = .ok (i, s'.roomy) :=
  takeWrite_roomy hL hs hf (g := fun s a b =>
    let b := Node.setNDesc c.L b a (if isRoot then s.nItems else ids.length)
    if ids.length > 0 then Node.setChildren c.L b a ids else b) (fun _ _ _ => rfl) h

theorem placeSplit_roomy (hL : c.L.Ok c.C.sz) {n : Nat} {s : Idx c} (hs : s.BInv n) (hf : c.L.Fits (s.nNodes + 1)) {m : Bytes}
    {i : Nat} {s' : Idx c} (h : placeSplit s m = .ok (i, s')) : placeSplit s.roomy m = .ok (i, s'.roomy) :=
  takeWrite_roomy hL hs hf (g := fun _ a b => Node.copyNode b a m 0 c.L.f) (fun _ _ _ => rfl) h

/-- Building a tree with more memory. -/
theorem makeTree_roomy (hc : c.WF) (rf n : Nat) (fuel : Nat) :
    ∀ (s : Idx c) (ids : List Nat) (isRoot : Bool) (i : Nat) (s' : Idx c),
    s.BInv n → makeTree rf fuel s ids isRoot = .ok (i, s') →
    c.L.Fits (s.nNodes + cap ids.length) → ids.length ≤ n → (isRoot = false → ids ≠ []) →
    (∀ x ∈ ids, IsItem c.L s.alloc.data n x) →
    makeTree rf fuel s.roomy ids isRoot = .ok (i, s'.roomy) := by
  have hL := hc.layout
  induction fuel with
  | zero => intro s ids isRoot i s' _ h; cases h
  | succ fuel ih =>
  intro s ids isRoot i s' hs h hfit hlen hne hitems
  unfold makeTree at h ⊢
  have hcap : 1 ≤ cap ids.length := le_max_left _ _
  split at h
  · cases h; rfl
  · show (if ids.length ≤ c.L.K ∧ (isRoot = false ∨ s.nItems ≤ c.L.K ∨ ids.length = 1) then _ else _) = _
    by_cases hbr : ids.length ≤ c.L.K ∧ (isRoot = false ∨ s.nItems ≤ c.L.K ∨ ids.length = 1)
    · rw [if_pos hbr] at h ⊢
      exact makeBucket_roomy hL hs (hfit.mono (by omega)) h
    · rw [if_neg hbr] at h ⊢
      cases h1 : chooseSplit rf s ids with
      | error e => rw [h1] at h; cases h
      | ok x =>
        obtain ⟨m, l, rt, s1⟩ := x
        rw [h1] at h
        rw [chooseSplit_roomy hL hs (fun x hx => lt_of_lt_of_le (hitems x hx).1 hs.n_le) h1]
        simp only [bind, Except.bind] at h ⊢
        obtain ⟨hp, hl, hrt, r, rfl⟩ := chooseSplit_spec hc _ _ _ h1
        have hl1 := List.length_pos_iff.2 hl
        have hr1 := List.length_pos_iff.2 hrt
        have hsum : l.length + rt.length = ids.length := by
          have := hp.length_eq
          rwa [List.length_append] at this
        have hiL : ∀ x ∈ l, IsItem c.L s.alloc.data n x := fun x hx => hitems x (hp.mem_iff.1 (by simp [hx]))
        have hiR : ∀ x ∈ rt, IsItem c.L s.alloc.data n x := fun x hx => hitems x (hp.mem_iff.1 (by simp [hx]))
        have two : ∀ (a b : List Nat) (ca cb : Nat) (sa sb : Idx c), a ≠ [] → b ≠ [] → a.length + b.length = ids.length →
            (∀ x ∈ a, IsItem c.L s.alloc.data n x) → (∀ x ∈ b, IsItem c.L s.alloc.data n x) →
            makeTree rf fuel ({ s with rng := r } : Idx c) a false = .ok (ca, sa) → makeTree rf fuel sa b false = .ok (cb, sb) →
            makeTree rf fuel ({ s with rng := r } : Idx c).roomy a false = .ok (ca, sa.roomy) ∧
            makeTree rf fuel sa.roomy b false = .ok (cb, sb.roomy) ∧ sb.BInv n ∧ c.L.Fits (sb.nNodes + 1) := by
          intro a b ca cb sa sb ha hb hab hia hib g1 g2
          have ha1 := List.length_pos_iff.2 ha
          have hb1 := List.length_pos_iff.2 hb
          have hcaps : cap a.length + cap b.length + 1 ≤ cap ids.length := by unfold cap; omega
          have hfa : c.L.Fits (({ s with rng := r } : Idx c).nNodes + cap a.length) := by
            apply hfit.mono
            show s.nNodes + _ ≤ _
            omega
          obtain ⟨E1, N1, _⟩ := makeTree_spec hc rf n _ _ a false ca sa (hs.rng r) g1 hfa (by omega) (fun _ => ha) hia (by simp)
          have N1' : sa.nNodes ≤ s.nNodes + cap a.length := N1
          have hfb : c.L.Fits (sa.nNodes + cap b.length) := hfit.mono (by omega)
          have hib' : ∀ x ∈ b, IsItem c.L sa.alloc.data n x := by
            intro x hx
            have := hib x hx
            refine ⟨this.1, ?_⟩
            have e := (E1.sameNode (i := x) (by
              show x < s.nNodes
              have := this.1; have := hs.n_le; omega)).nd hL
            rw [← e]
            exact this.2
          obtain ⟨E2, N2, _⟩ := makeTree_spec hc rf n _ _ b false cb sb E1.inv g2 hfb (by omega) (fun _ => hb) hib' (by simp)
          exact ⟨ih _ _ _ _ _ (hs.rng r) g1 hfa (by omega) (fun _ => ha) hia,
            ih _ _ _ _ _ E1.inv g2 hfb (by omega) (fun _ => hb) hib', E2.inv, hfit.mono (by omega)⟩
        by_cases hlr : l.length > rt.length
        · rw [if_pos hlr] at h ⊢
          cases g1 : makeTree rf fuel ({ s with rng := r } : Idx c) rt false with
          | error e => rw [g1] at h; cases h
          | ok x =>
            obtain ⟨ca, sa⟩ := x
            rw [g1] at h
            dsimp only at h
            cases g2 : makeTree rf fuel sa l false with
            | error e => rw [g2] at h; cases h
            | ok x =>
              obtain ⟨cb, sb⟩ := x
              rw [g2] at h
              obtain ⟨k1, k2, k3, k4⟩ := two rt l ca cb sa sb hrt hl (by omega) hiR hiL g1 g2
              rw [k1]
              dsimp only
              rw [k2]
              exact placeSplit_roomy hL k3 k4 h
        · rw [if_neg hlr] at h ⊢
          cases g1 : makeTree rf fuel ({ s with rng := r } : Idx c) l false with
          | error e => rw [g1] at h; cases h
          | ok x =>
            obtain ⟨ca, sa⟩ := x
            rw [g1] at h
            dsimp only at h
            cases g2 : makeTree rf fuel sa rt false with
            | error e => rw [g2] at h; cases h
            | ok x =>
              obtain ⟨cb, sb⟩ := x
              rw [g2] at h
              obtain ⟨k1, k2, k3, k4⟩ := two l rt ca cb sa sb hl hrt (by omega) hiL hiR g1 g2
              rw [k1]
              dsimp only
              rw [k2]
              exact placeSplit_roomy hL k3 k4 h

theorem liveItems_roomy (hL : c.L.Ok c.C.sz) {n : Nat} {s : Idx c} (hs : s.BInv n) :
    liveItems c s.roomy.bmem s.roomy.nItems = liveItems c s.bmem s.nItems := by
  unfold liveItems
  show (List.range s.nItems).mapM _ >>= _ = _
  rw [mapM_same fun i hi => ?_]
  have hi := List.mem_range.1 hi
  rw [hs.roomy_node hL (by rw [hs.nItems] at hi; have := hs.n_le; omega), hs.bmem_get]
  rfl

/-- The loop of `ThreadBuild` with more memory. -/
theorem threadLoop_roomy (hc : c.WF) (rf tf n : Nat) (trees : Int)
    (m : Nat → Option (List c.N.V)) (B : Nat) (hB : c.L.Fits B)
    (hBT : trees ≠ -1 → n + trees.toNat * cap (liveOf m n).length ≤ B)
    (hBM : trees = -1 → 2 * n + cap (liveOf m n).length ≤ B) (lf : Nat) :
    ∀ (s : Idx c) (done rs : List Nat) (s' : Idx c),
    s.BInv n → s.Slots m n → s.nNodes ≤ n + done.length * cap (liveOf m n).length →
    threadLoop rf tf trees lf s done = .ok (rs, s') →
    threadLoop rf tf trees lf s.roomy done = .ok (rs, s'.roomy) := by
  have hL := hc.layout
  have hp := hL.nodeSize_pos
  induction lf with
  | zero => intro s done rs s' _ _ _ h; cases h
  | succ lf ih =>
    intro s done rs s' hs hsl hcap h
    unfold threadLoop at h ⊢
    show (if (if trees = -1 then s.nNodes ≥ c.L.wrap (2 * s.nItems) else (done.length : Int) ≥ trees) then _ else _) = _
    by_cases hstop : (if trees = -1 then s.nNodes ≥ c.L.wrap (2 * s.nItems) else (done.length : Int) ≥ trees)
    · rw [if_pos hstop] at h ⊢
      cases h
      rfl
    · rw [if_neg hstop] at h ⊢
      rw [liveItems_eq hs hsl] at h
      rw [liveItems_roomy hL hs, liveItems_eq hs hsl]
      simp only [bind, Except.bind] at h ⊢
      have hgo := hstop
      rw [hs.nItems] at hgo
      have h2n : trees = -1 → c.L.wrap (2 * n) = 2 * n := by
        intro ht
        apply c.L.wrap_eq
        have := hBM ht
        have := hB.lt_range hp
        have : 1 ≤ cap (liveOf m n).length := le_max_left _ _
        omega
      have hroom : s.nNodes + cap (liveOf m n).length ≤ B := by
        by_cases ht : trees = -1
        · rw [if_pos ht, h2n ht] at hgo
          have := hBM ht
          omega
        · rw [if_neg ht] at hgo
          have h1 := hBT ht
          have h2 : done.length + 1 ≤ trees.toNat := by omega
          have h3 := Nat.mul_le_mul_right (cap (liveOf m n).length) h2
          rw [Nat.add_mul] at h3
          omega
      cases g : makeTree rf tf s (liveOf m n) true with
      | error e => rw [g] at h; cases h
      | ok x =>
        obtain ⟨root, s1⟩ := x
        rw [g] at h
        dsimp only at h
        rw [makeTree_roomy hc rf n tf s (liveOf m n) true root s1 hs g (hB.mono hroom) (liveOf_length_le m n) (by simp)
          (fun x hx => hsl.isItem hx)]
        obtain ⟨M1, M2, -⟩ := makeTree_spec hc rf n _ s (liveOf m n) true root s1 hs g
          (hB.mono hroom) (liveOf_length_le m n) (by simp) (fun x hx => hsl.isItem hx) (fun _ h1 hK => hsl.lone hL h1 hK)
        exact ih s1 (done ++ [root]) rs s' M1.inv (hsl.ext hL hs.n_le M1) (by
          rw [List.length_append, List.length_singleton, Nat.add_mul]; omega) h

/-- The copies of the roots with more memory. -/
theorem copyRoots_roomy (hL : c.L.Ok c.C.sz) {n : Nat} (rs : List Nat) : ∀ (s : Idx c) (dst : Nat) (s' : Idx c), s.MemOK →
    dst + rs.length ≤ s.nodesSize → n ≤ dst → (∀ r ∈ rs, n ≤ r ∧ r < dst) → copyRoots s rs dst = .ok s' →
    copyRoots s.roomy rs dst = .ok (s'.roomy) := by
  induction rs with
  | nil => intro s dst s' _ _ _ _ h; cases h; rfl
  | cons r rs ih =>
    intro s dst s' hs hsz hd hr h
    rw [List.length_cons] at hsz
    have hrd := hr r (by simp)
    have g1 := (hs.getNode (i := dst) (by omega)).1
    have g2 := (hs.getNode (i := r) (by omega)).1
    have hw : c.L.wrap (dst + 1) = dst + 1 := by
      apply c.L.wrap_eq
      have h1 := hs.fits
      have h2 : s.nodesSize * 1 ≤ s.nodesSize * c.L.nodeSize :=
        Nat.mul_le_mul_left _ hL.nodeSize_pos
      by_contra hcon
      have : s.nodesSize = dst + 1 := by omega
      omega
    unfold copyRoots at h ⊢
    have a1 := (hs.getNode (i := dst) (by omega)).2
    have a2 := (hs.getNode (i := r) (by omega)).2
    rw [roomy_getNode hL, roomy_getNode hL, a1, a2]
    rw [g1] at h
    simp only [bind, Except.bind] at h ⊢
    rw [g2] at h
    dsimp only at h
    rw [hw] at h ⊢
    exact ih (s.write fun b => Node.copyNode b (dst * c.L.nodeSize) b (r * c.L.nodeSize) c.L.f) (dst + 1) s' ⟨hs.fits, hs.size, hs.nodes⟩ (by
      show dst + 1 + rs.length ≤ s.nodesSize
      omega) (by omega) (fun x hx => by have := hr x (by simp [hx]); omega) h

/-- The end of `Build` with more memory. -/
theorem buildFinish_roomy (hc : c.WF) {n : Nat} {s s' : Idx c} (hs : s.BInv n)
    (hfit : c.L.Fits (s.nNodes + s.roots.length)) (hr : ∀ r ∈ s.roots, n ≤ r ∧ r < s.nNodes) (h : buildFinish s = .ok s') :
    buildFinish s.roomy = .ok (s'.roomy) := by
  have hL := hc.layout
  have hw : c.L.wrap (s.nNodes + s.roots.length) = s.nNodes + s.roots.length := c.L.wrap_eq (hfit.lt_range hL.nodeSize_pos)
  obtain ⟨hm4, hn4, hn4', hd4, sz, nd, al, he4⟩ := allocateSize_spec hL hs.memOK hfit hs.zero
    (Nat.mul_le_mul_right c.L.nodeSize hs.le_size)
  have e3 : (s.allocateSize (s.nNodes + s.roots.length)).roots = s.roots := by rw [he4]
  have e4 : (s.allocateSize (s.nNodes + s.roots.length)).nNodes = s.nNodes := by rw [he4]
  have hA : s.roomy.allocateSize (c.L.wrap (s.roomy.nNodes + s.roomy.roots.length)) =
      (s.allocateSize (s.nNodes + s.roots.length)).roomy := by
    rw [← hw]
    exact roomy_allocateSize hs.out (wrap_lt hL _).le
  unfold buildFinish at h ⊢
  rw [hA]
  rw [hw] at h
  generalize hs4 : s.allocateSize (s.nNodes + s.roots.length) = s4 at *
  have hroots : s4.roomy.roots = s.roots := e3
  have hnodes : s4.roomy.nNodes = s.nNodes := e4
  dsimp only at h ⊢
  rw [hroots, hnodes]
  rw [e3, e4] at h
  obtain ⟨s5, C1, ⟨d, C2⟩, C3, -⟩ := copyRoots_spec hc s.roots s4 s.nNodes hm4 hn4 (fun r h => (hr r h).2)
  rw [copyRoots_roomy hL s.roots s4 s.nNodes s5 hm4 hn4 hs.n_le hr C1]
  rw [C1] at h
  simp only [bind, Except.bind] at h ⊢
  have hm5 : s5.MemOK := by rw [C2]; exact ⟨hm4.fits, hm4.size, hm4.nodes⟩
  have e5 : s5.nNodes = s.nNodes := by rw [C2]; exact e4
  have e6 : s5.roots = s.roots := by rw [C2]; exact e3
  have e7 : s5.nodesSize = s4.nodesSize := by rw [C2]; rfl
  have hcount : ∀ k : Nat, countNNS c s5.roomy.bmem k (s.nNodes + s.roots.length) = countNNS c s5.bmem k (s.nNodes + s.roots.length) := by
    intro k
    unfold countNNS
    rw [mapM_same fun i hi => ?_]
    have hi := List.mem_range.1 hi
    have g := (hm5.getNode (i := i) (by omega)).1
    have hb : s5.nodes = .build := hm5.nodes (by omega)
    unfold nnsOf
    rw [roomy_getNode hL, g, (hm5.getNode (i := i) (by omega)).2]
    have q1 : s5.bmem.get = s5.alloc.data := by unfold bmem; rw [hb]; rfl
    simp only [bind, Except.bind]
    rw [q1]
    rfl
  have hcount' : countNNS c s5.roomy.bmem s5.nItems (c.L.wrap (s5.nNodes + s5.roots.length)) =
      countNNS c s5.bmem s5.nItems (c.L.wrap (s5.nNodes + s5.roots.length)) := by
    rw [e5, e6, hw]
    exact hcount _
  have h : (countNNS c s5.bmem s5.nItems (c.L.wrap (s5.nNodes + s5.roots.length)) >>= fun k => Except.ok
    ({ s5 with nNodes := c.L.wrap (s5.nNodes + s5.roots.length), built := true, batchMaxNNS := k } : Idx c)) = .ok s' := h
  show (countNNS c s5.roomy.bmem s5.nItems (c.L.wrap (s5.nNodes + s5.roots.length)) >>= fun k => Except.ok
    ({ s5.roomy with nNodes := c.L.wrap (s5.nNodes + s5.roots.length), built := true, batchMaxNNS := k } : Idx c)) = .ok (s'.roomy)
  rw [hcount']
  cases hk : countNNS c s5.bmem s5.nItems (c.L.wrap (s5.nNodes + s5.roots.length)) with
  | error e =>
    rw [hk] at h
    cases h
  | ok k =>
    rw [hk] at h
    cases h
    rfl

/-- `Build` of the single policy after `buildStart`, with more memory. -/
theorem buildRest_roomy (hc : c.WF) {m : Nat → Option (List c.N.V)} {n : Nat}
    {s1 : Idx c} (hs : s1.BInv n) (hsl : s1.Slots m n) (hn1 : s1.nNodes = n) (hr : s1.roots = [])
    {rf tf lf : Nat} {trees : Int} (hfit : c.L.Fits (buildBound n trees)) {s' : Idx c}
    (h : (s1.threadBuild rf tf lf trees 0 >>= buildFinish) = .ok s') :
    (s1.roomy.threadBuild rf tf lf trees 0 >>= buildFinish) = .ok (s'.roomy) := by
  have hL := hc.layout
  unfold threadBuild at h ⊢
  cases hu : threadLoop rf tf trees lf s1 [] with
  | error e => rw [hu] at h; cases h
  | ok u =>
    obtain ⟨rs, s2⟩ := u
    rw [hu] at h
    simp only [bind, Except.bind] at h ⊢
    have hlive := liveOf_length_le m n
    have hcapn : cap (liveOf m n).length ≤ 2 * n + 1 := by unfold cap; omega
    have hcap1 : 1 ≤ cap (liveOf m n).length := le_max_left _ _
    set B := if trees = -1 then 2 * n + cap (liveOf m n).length
      else n + trees.toNat * cap (liveOf m n).length with hB
    have hBle : B ≤ buildBound n trees := by
      rw [hB]; unfold buildBound
      split
      · unfold cap; omega
      · have : trees.toNat * cap (liveOf m n).length ≤ trees.toNat * (2 * n + 2) :=
          Nat.mul_le_mul_left _ (by omega)
        omega
    have hfitB : c.L.Fits B := hfit.mono hBle
    have hnB : n ≤ B := by rw [hB]; split <;> omega
    obtain ⟨T1, T2, T3, T4, T5, new, T6, T7, T8, T9, T11, T10⟩ := threadLoop_spec hc rf tf n trees m B hfitB
      (fun ht => by rw [hB, if_neg ht]) (fun ht => by rw [hB, if_pos ht]) lf s1 [] rs s2 hs hsl
      (by simp; omega) (by omega) (by simp; omega) hu
    rw [threadLoop_roomy hc rf tf n trees m B hfitB
      (fun ht => by rw [hB, if_neg ht]) (fun ht => by rw [hB, if_pos ht]) lf s1 [] rs s2 hs hsl (by simp; omega) hu]
    simp only [List.nil_append] at T6
    subst T6
    have hroots2 : s2.roots = [] := by rw [T1.roots, hr]
    have hfin : s2.nNodes + rs.length ≤ buildBound n trees := by
      by_cases ht : trees = -1
      · have h4 := (T4 ht).2
        simp at h4
        rw [hB, if_pos ht] at T2
        unfold buildBound
        rw [if_pos ht]
        unfold cap at T2
        omega
      · have h5 := T5 ht
        simp at h5
        rw [hB, if_neg ht] at T2
        unfold buildBound
        rw [if_neg ht, h5]
        have : trees.toNat * cap (liveOf m n).length ≤ trees.toNat * (2 * n + 1) :=
          Nat.mul_le_mul_left _ (by omega)
        have e : trees.toNat * (2 * n + 2) = trees.toNat * (2 * n + 1) + trees.toNat := by ring
        omega
    have hb2 : ({ s2 with roots := s2.roots ++ rs } : Idx c).BInv n := ⟨⟨T1.inv.memOK.fits, T1.inv.memOK.size, T1.inv.memOK.nodes⟩, T1.inv.loaded,
          T1.inv.nItems, T1.inv.n_le, T1.inv.le_size, T1.inv.zero⟩
    refine buildFinish_roomy hc (s := ({ s2 with roots := s2.roots ++ rs } : Idx c)) hb2 ?_ ?_ h
    · show c.L.Fits (s2.nNodes + (s2.roots ++ rs).length)
      rw [hroots2]
      exact hfit.mono hfin
    · intro r hr
      have hr : r ∈ s2.roots ++ rs := hr
      rw [hroots2] at hr
      have := T7 r hr
      exact ⟨by omega, this.2.1⟩

end Idx
end Annoy
