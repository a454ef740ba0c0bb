import Verif.Proof.DataBlind
import Verif.Proof.Hint
/-!
# Building over other data

For a distance that does not see the data (`DataBlind`), `Build` does the same when the bytes of the item nodes are replaced by other items.
-/
namespace Annoy

/-- `b` with the first `z` bytes taken from `T`. -/
def swapBytes (T : Bytes) (z : Nat) (b : Bytes) : Bytes := ⟨fun x => if x < z then T x else b x⟩

theorem swapBytes_write {T : Bytes} {z a : Nat} (h : z ≤ a) (b : Bytes) (l : List Byte) :
    writeBytes (swapBytes T z b) a l = swapBytes T z (writeBytes b a l) := by
  refine Bytes.ext' fun x => ?_
  show (if a ≤ x ∧ x < a + l.length then l.getD (x - a) 0 else if x < z then T x else b x) =
    if x < z then T x else (if a ≤ x ∧ x < a + l.length then l.getD (x - a) 0 else b x)
  split
  · rw [if_neg (by omega)]
  · rfl

theorem swapBytes_read {T : Bytes} {z a : Nat} (h : z ≤ a) (b : Bytes) (k : Nat) :
    readBytes (swapBytes T z b) a k = readBytes b a k := by
  apply readBytes_congr
  intro j hj
  show (if a + j < z then _ else _) = _
  rw [if_neg (by omega)]

theorem swapBytes_below {T : Bytes} {z x : Nat} (h : x < z) (b : Bytes) : swapBytes T z b x = T x := by
  show (if x < z then _ else _) = _
  rw [if_pos h]

theorem swapBytes_above {T : Bytes} {z x : Nat} (h : z ≤ x) (b : Bytes) : swapBytes T z b x = b x := by
  show (if x < z then _ else _) = _
  rw [if_neg (by omega)]

namespace Idx
variable {c : Cfg} {fin : c.N.V → Prop} {blank : Bytes → Prop}

/-- `s` with other item nodes. -/
def swap (T : Bytes) (n : Nat) (s : Idx c) : Idx c := s.write (swapBytes T (n * c.L.nodeSize))

theorem swap_size (T : Bytes) (n : Nat) (s : Idx c) : (s.swap T n).bmem.size = s.bmem.size := by
  obtain ⟨_, _, _, nodes, _, _, _, _, _, _, _⟩ := s
  cases nodes <;> rfl

theorem swap_getNode (T : Bytes) (n : Nat) (s : Idx c) (i : Nat) : getNode c.L (s.swap T n).bmem i = getNode c.L s.bmem i := by
  unfold getNode
  rw [swap_size]

theorem swap_allocateSize {T : Bytes} {n : Nat} {s : Idx c} (h : n * c.L.nodeSize ≤ s.alloc.size) (k : Nat) :
    (s.swap T n).allocateSize k = (s.allocateSize k).swap T n := by
  unfold allocateSize
  show (if k > s.nodesSize then _ else _) = _
  split
  · unfold swap write
    dsimp only
    congr 1
    unfold Alloc.reallocate
    dsimp only
    split
    · rfl
    · congr 1
      refine Bytes.ext' fun x => ?_
      show (if x < s.alloc.size then (if x < n * c.L.nodeSize then T x else s.alloc.data x) else 0) =
        if x < n * c.L.nodeSize then T x else (if x < s.alloc.size then s.alloc.data x else 0)
      by_cases h1 : x < n * c.L.nodeSize
      · rw [if_pos (by omega), if_pos h1, if_pos h1]
      · rw [if_neg h1, if_neg h1]
  · rfl

/-- The items in both memories. -/
structure Twinned (fin : c.N.V → Prop) (T : Bytes) (n : Nat) (s : Idx c) : Prop where
  here : ∀ i, IsItem c.L s.alloc.data n i → ∃ v, ItemAt c s.alloc.data (i * c.L.nodeSize) v ∧ ∀ x ∈ v, fin x
  there : ∀ i, IsItem c.L s.alloc.data n i → ∃ v, ItemAt c T (i * c.L.nodeSize) v ∧ ∀ x ∈ v, fin x
  count : ∀ i, i < n → ndAt c.L T i = ndAt c.L s.alloc.data i

theorem Twinned.ext (hL : c.L.Ok c.C.sz) {T : Bytes} {n : Nat} {s s' : Idx c} (h : s.Twinned fin T n) (hn : n ≤ s.nNodes) (he : Ext s s' n) :
    s'.Twinned fin T n := by
  have hsame : ∀ i, i < n → ndAt c.L s'.alloc.data i = ndAt c.L s.alloc.data i := fun i hi =>
    ((he.sameNode (i := i) (by omega)).nd hL).symm
  have hitem : ∀ i, IsItem c.L s'.alloc.data n i → IsItem c.L s.alloc.data n i := fun i hi =>
    ⟨hi.1, by rw [← hsame i hi.1]; exact hi.2⟩
  refine ⟨fun i hi => ?_, fun i hi => h.there i (hitem i hi), fun i hi => by rw [h.count i hi, hsame i hi]⟩
  obtain ⟨v, h1, h2⟩ := h.here i (hitem i hi)
  refine ⟨v, h1.congr hL fun j hj => he.frame _ ?_, h2⟩
  have := hi.1
  have h3 := Nat.mul_le_mul_right c.L.nodeSize (show i + 1 ≤ s.nNodes by omega)
  rw [Nat.succ_mul] at h3
  omega

theorem Twinned.rng {T : Bytes} {n : Nat} {s : Idx c} (h : s.Twinned fin T n) (r : c.R.σ) :
    ({ s with rng := r } : Idx c).Twinned fin T n := ⟨h.here, h.there, h.count⟩

/-- The items as the swapped memory holds them. -/
theorem Twinned.swapped (hL : c.L.Ok c.C.sz) {T : Bytes} {n : Nat} {s : Idx c} (h : s.Twinned fin T n) {i : Nat}
    (hi : IsItem c.L s.alloc.data n i) : ∃ v, ItemAt c (s.swap T n).alloc.data (i * c.L.nodeSize) v ∧ ∀ x ∈ v, fin x := by
  obtain ⟨v, h1, h2⟩ := h.there i hi
  refine ⟨v, h1.congr hL fun j hj => swapBytes_below ?_ _, h2⟩
  have h3 := Nat.mul_le_mul_right c.L.nodeSize (show i + 1 ≤ n from hi.1)
  rw [Nat.succ_mul] at h3
  omega

theorem assignSides_congr {f g : Nat → c.R.σ → Except Err (Side × c.R.σ)} {ids : List Nat} (h : ∀ j ∈ ids, ∀ r, f j r = g j r) :
    ∀ r, assignSides f ids r = assignSides g ids r := by
  induction ids with
  | nil => intro r; rfl
  | cons j ids ih =>
    intro r
    unfold assignSides
    rw [h j (by simp)]
    cases g j r with
    | error e => rfl
    | ok x =>
      simp only [bind, Except.bind]
      rw [ih (fun i hi => h i (by simp [hi]))]

/-- The attempts to find a hyperplane do not see the data. -/
theorem trySplit_blind (D : DataBlind c fin blank) (hf0 : 0 < c.L.f) {mem mem' : Block} {addrs ids : List Nat}
    (h1 : ∀ a ∈ addrs, ∃ v, ItemAt c mem.get a v) (h2 : ∀ a ∈ addrs, ∃ v, ItemAt c mem'.get a v)
    (g1 : ∀ j ∈ ids, ∃ v, getNode c.L mem j = .ok (j * c.L.nodeSize) ∧ ItemAt c mem.get (j * c.L.nodeSize) v ∧ ∀ x ∈ v, fin x)
    (g2 : ∀ j ∈ ids, ∃ v, getNode c.L mem' j = .ok (j * c.L.nodeSize) ∧ ItemAt c mem'.get (j * c.L.nodeSize) v ∧ ∀ x ∈ v, fin x)
    (k : Nat) : ∀ (m : Bytes) (l rt : List Nat) (r : c.R.σ), blank m →
    trySplit c mem' addrs ids k m l rt r = trySplit c mem addrs ids k m l rt r := by
  induction k with
  | zero => intro m l rt r _; rfl
  | succ k ih =>
    intro m l rt r hm
    unfold trySplit
    rw [D.split mem'.get mem.get addrs r m h2 h1]
    cases e : c.D.createSplit mem.get addrs r m with
    | error x => rfl
    | ok x =>
      obtain ⟨m', r'⟩ := x
      have hm' := D.used _ _ _ _ _ _ h1 hm e
      simp only [bind, Except.bind]
      have hs : ∀ {mem : Block}, (∀ j ∈ ids, ∃ v, getNode c.L mem j = .ok (j * c.L.nodeSize) ∧ ItemAt c mem.get (j * c.L.nodeSize) v ∧ ∀ x ∈ v, fin x) →
          ∀ j ∈ ids, ∀ r, sideOfItem c mem m' j r = .ok (c.R.nextSide r) := by
        intro mem g j hj r
        obtain ⟨v, e1, e2, e3⟩ := g j hj
        unfold sideOfItem
        rw [e1]
        simp only [bind, Except.bind]
        rw [e2.vec]
        exact D.side _ _ _ hm' hf0 (by rw [← e2.vec]; simp) e3
      rw [assignSides_congr (fun j hj r => (hs g2 j hj r).trans (hs g1 j hj r).symm)]
      cases assignSides (sideOfItem c mem m') ids r' with
      | error x => rfl
      | ok x =>
        obtain ⟨l', rt', r2⟩ := x
        dsimp only
        rw [ih _ _ _ _ hm']

theorem chooseSplit_swap (hc : c.WF) (D : DataBlind c fin blank) (hf0 : 0 < c.L.f) {T : Bytes} {n : Nat} {s : Idx c} (hs : s.BInv n)
    (ht : s.Twinned fin T n) {rf : Nat} {ids : List Nat} (hids : ∀ x ∈ ids, IsItem c.L s.alloc.data n x) {m l rt s'}
    (h : chooseSplit rf s ids = .ok (m, l, rt, s')) : chooseSplit rf (s.swap T n) ids = .ok (m, l, rt, s'.swap T n) := by
  have hL := hc.layout
  have hget : ∀ x ∈ ids, getNode c.L s.bmem x = .ok (x * c.L.nodeSize) := fun x hx =>
    (hs.memOK.getNode (by have := (hids x hx).1; have := hs.n_le; have := hs.le_size; omega)).1
  have e1 : ids.mapM (getNode c.L s.bmem) = .ok (ids.map (· * c.L.nodeSize)) := mapM_ok hget
  have e2 : ids.mapM (getNode c.L (s.swap T n).bmem) = .ok (ids.map (· * c.L.nodeSize)) :=
    mapM_ok fun x hx => by rw [swap_getNode]; exact hget x hx
  have hmem : ids ≠ [] → s.nodes = .build := by
    intro hne
    obtain ⟨x, hx⟩ := List.exists_mem_of_ne_nil _ hne
    exact hs.memOK.nodes (by have := (hids x hx).1; have := hs.n_le; have := hs.le_size; omega)
  have hbm : ids ≠ [] → s.bmem.get = s.alloc.data ∧ (s.swap T n).bmem.get = (s.swap T n).alloc.data := by
    intro hne
    have h1 := hmem hne
    have h2 : (s.swap T n).nodes = .build := h1
    unfold bmem
    rw [h1, h2]
    exact ⟨rfl, rfl⟩
  have key := trySplit_blind D hf0 (mem := s.bmem) (mem' := (s.swap T n).bmem) (addrs := ids.map (· * c.L.nodeSize)) (ids := ids)
    (by
      intro a ha
      obtain ⟨j, hj, rfl⟩ := List.mem_map.1 ha
      rw [(hbm (List.ne_nil_of_mem hj)).1]
      obtain ⟨v, hv, _⟩ := ht.here j (hids j hj)
      exact ⟨v, hv⟩)
    (by
      intro a ha
      obtain ⟨j, hj, rfl⟩ := List.mem_map.1 ha
      rw [(hbm (List.ne_nil_of_mem hj)).2]
      obtain ⟨v, hv, _⟩ := ht.swapped hL (hids j hj)
      exact ⟨v, hv⟩)
    (by
      intro j hj
      rw [(hbm (List.ne_nil_of_mem hj)).1]
      obtain ⟨v, hv, hf⟩ := ht.here j (hids j hj)
      exact ⟨v, hget j hj, hv, hf⟩)
    (by
      intro j hj
      rw [(hbm (List.ne_nil_of_mem hj)).2, swap_getNode]
      obtain ⟨v, hv, hf⟩ := ht.swapped hL (hids j hj)
      exact ⟨v, hget j hj, hv, hf⟩) 3 zeros [] [] s.rng D.fresh
  unfold chooseSplit at h ⊢
  rw [e1] at h
  rw [e2]
  simp only [bind, Except.bind] at h ⊢
  have key' : trySplit c (s.swap T n).bmem (ids.map (· * c.L.nodeSize)) ids 3 zeros [] [] (s.swap T n).rng = _ := key
  rw [key']
  cases e3 : trySplit c s.bmem (ids.map (· * c.L.nodeSize)) ids 3 zeros [] [] s.rng with
  | error x => rw [e3] at h; cases h
  | ok x =>
    obtain ⟨m1, l1, rt1, r1⟩ := x
    rw [e3] at h
    dsimp only at h ⊢
    cases e4 : randomize c ids rf m1 l1 rt1 r1 with
    | error x => rw [e4] at h; cases h
    | ok x =>
      obtain ⟨m2, l2, rt2, r2⟩ := x
      rw [e4] at h
      cases h
      rfl

theorem BInv.items_le {n : Nat} {s : Idx c} (hs : s.BInv n) : n * c.L.nodeSize ≤ s.alloc.size :=
  (Nat.mul_le_mul_right _ (hs.n_le.trans hs.le_size)).trans hs.memOK.size

theorem takeNode_swap {T : Bytes} {n : Nat} {s : Idx c} (hs : s.BInv n) :
    (s.swap T n).takeNode = (s.takeNode.1, s.takeNode.2.swap T n) := by
  unfold takeNode
  rw [show (s.swap T n).nNodes = s.nNodes from rfl, swap_allocateSize hs.items_le]
  rfl

/-- A new node is written behind the items. -/
theorem takeWrite_swap (hL : c.L.Ok c.C.sz) {T : Bytes} {n : Nat} {s : Idx c} (hs : s.BInv n) (hf : c.L.Fits (s.nNodes + 1))
    {g : Idx c → Nat → Bytes → Bytes} (hg : ∀ s' b a, n * c.L.nodeSize ≤ a → g (s'.swap T n) a (swapBytes T (n * c.L.nodeSize) b) =
      swapBytes T (n * c.L.nodeSize) (g s' a b)) {i : Nat} {s' : Idx c}
    (h : (do
      let a ← getNode c.L s.takeNode.2.bmem s.takeNode.1
      Except.ok (s.takeNode.1, s.takeNode.2.write (g s.takeNode.2 a)) : Except Err (Nat × Idx c)) = .ok (i, s')) :
    (do
      let a ← getNode c.L (s.swap T n).takeNode.2.bmem (s.swap T n).takeNode.1
      Except.ok ((s.swap T n).takeNode.1, (s.swap T n).takeNode.2.write (g (s.swap T n).takeNode.2 a)) : Except Err (Nat × Idx c)) = .ok (i, s'.swap T n) := by
  rw [takeNode_swap hs]
  obtain ⟨t1, t2, t3, _⟩ := takeNode_spec hL hs hf
  dsimp only
  rw [swap_getNode]
  have hg1 := t2.memOK.getNode (i := s.takeNode.1) (by rw [t1]; have := t2.le_size; omega)
  rw [hg1.1] at h ⊢
  simp only [bind, Except.bind, Except.ok.injEq, Prod.mk.injEq] at h ⊢
  refine ⟨h.1, ?_⟩
  rw [← h.2]
  unfold swap write
  dsimp only
  congr 2
  refine hg _ _ _ ?_
  rw [t1]
  exact Nat.mul_le_mul_right _ hs.n_le

theorem makeBucket_swap (hL : c.L.Ok c.C.sz) {T : Bytes} {n : Nat} {s : Idx c} (hs : s.BInv n) (hf : c.L.Fits (s.nNodes + 1)) {ids : List Nat}
    {isRoot : Bool} {i : Nat} {s' : Idx c} (h : makeBucket s ids isRoot = .ok (i, s')) :
    makeBucket (s.swap T n) ids isRoot = .ok (i, s'.swap T n) := by
  refine takeWrite_swap hL hs hf (g := fun s a b =>
    let b := Node.setNDesc c.L b a (if isRoot then s.nItems else ids.length)
    if ids.length > 0 then Node.setChildren c.L b a ids else b) ?_ h
  intro s' b a ha
  dsimp only
  have e : Node.setNDesc c.L (swapBytes T (n * c.L.nodeSize) b) a (if isRoot then (s'.swap T n).nItems else ids.length) =
      swapBytes T (n * c.L.nodeSize) (Node.setNDesc c.L b a (if isRoot then s'.nItems else ids.length)) :=
    swapBytes_write ha _ _
  rw [e]
  split
  · exact swapBytes_write (by omega) _ _
  · rfl

theorem placeSplit_swap (hL : c.L.Ok c.C.sz) {T : Bytes} {n : Nat} {s : Idx c} (hs : s.BInv n) (hf : c.L.Fits (s.nNodes + 1)) {m : Bytes}
    {i : Nat} {s' : Idx c} (h : placeSplit s m = .ok (i, s')) : placeSplit (s.swap T n) m = .ok (i, s'.swap T n) :=
  takeWrite_swap hL hs hf (g := fun _ a b => Node.copyNode b a m 0 c.L.f) (fun _ _ _ ha => swapBytes_write ha _ _) h

/-- Building a tree over other items. -/
theorem makeTree_swap (hc : c.WF) (D : DataBlind c fin blank) (hf0 : 0 < c.L.f) {T : Bytes} (rf n : Nat) (fuel : Nat) :
    ∀ (s : Idx c) (ids : List Nat) (isRoot : Bool) (i : Nat) (s' : Idx c),
    s.BInv n → s.Twinned fin T n → makeTree rf fuel s ids isRoot = .ok (i, s') →
    c.L.Fits (s.nNodes + cap ids.length) → ids.length ≤ n → (isRoot = false → ids ≠ []) →
    (∀ x ∈ ids, IsItem c.L s.alloc.data n x) →
    makeTree rf fuel (s.swap T n) ids isRoot = .ok (i, s'.swap T n) := by
  have hL := hc.layout
  induction fuel with
  | zero => intro s ids isRoot i s' _ _ h; cases h
  | succ fuel ih =>
  intro s ids isRoot i s' hs ht h hfit hlen hne hitems
  unfold makeTree at h ⊢
  have hcap : 1 ≤ cap ids.length := le_max_left _ _
  split at h
  · cases h; rfl
  · show (if ids.length ≤ c.L.K ∧ (isRoot = false ∨ s.nItems ≤ c.L.K ∨ ids.length = 1) then _ else _) = _
    by_cases hbr : ids.length ≤ c.L.K ∧ (isRoot = false ∨ s.nItems ≤ c.L.K ∨ ids.length = 1)
    · rw [if_pos hbr] at h ⊢
      exact makeBucket_swap hL hs (hfit.mono (by omega)) h
    · rw [if_neg hbr] at h ⊢
      cases h1 : chooseSplit rf s ids with
      | error e => rw [h1] at h; cases h
      | ok x =>
        obtain ⟨m, l, rt, s1⟩ := x
        rw [h1] at h
        rw [chooseSplit_swap hc D hf0 hs ht hitems h1]
        simp only [bind, Except.bind] at h ⊢
        obtain ⟨hp, hl, hrt, r, rfl⟩ := chooseSplit_spec hc _ _ _ h1
        have hl1 := List.length_pos_iff.2 hl
        have hr1 := List.length_pos_iff.2 hrt
        have hsum : l.length + rt.length = ids.length := by
          have := hp.length_eq
          rwa [List.length_append] at this
        have hiL : ∀ x ∈ l, IsItem c.L s.alloc.data n x := fun x hx => hitems x (hp.mem_iff.1 (by simp [hx]))
        have hiR : ∀ x ∈ rt, IsItem c.L s.alloc.data n x := fun x hx => hitems x (hp.mem_iff.1 (by simp [hx]))
        have two : ∀ (a b : List Nat) (ca cb : Nat) (sa sb : Idx c), a ≠ [] → b ≠ [] → a.length + b.length = ids.length →
            (∀ x ∈ a, IsItem c.L s.alloc.data n x) → (∀ x ∈ b, IsItem c.L s.alloc.data n x) →
            makeTree rf fuel ({ s with rng := r } : Idx c) a false = .ok (ca, sa) → makeTree rf fuel sa b false = .ok (cb, sb) →
            makeTree rf fuel (({ s with rng := r } : Idx c).swap T n) a false = .ok (ca, sa.swap T n) ∧
            makeTree rf fuel (sa.swap T n) b false = .ok (cb, sb.swap T n) ∧ sb.BInv n ∧ c.L.Fits (sb.nNodes + 1) := by
          intro a b ca cb sa sb ha hb hab hia hib g1 g2
          have ha1 := List.length_pos_iff.2 ha
          have hb1 := List.length_pos_iff.2 hb
          have hcaps : cap a.length + cap b.length + 1 ≤ cap ids.length := by unfold cap; omega
          have hfa : c.L.Fits (({ s with rng := r } : Idx c).nNodes + cap a.length) := by
            apply hfit.mono
            show s.nNodes + _ ≤ _
            omega
          obtain ⟨E1, N1, _⟩ := makeTree_spec hc rf n _ _ a false ca sa (hs.rng r) g1 hfa (by omega) (fun _ => ha) hia (by simp)
          have N1' : sa.nNodes ≤ s.nNodes + cap a.length := N1
          have hfb : c.L.Fits (sa.nNodes + cap b.length) := hfit.mono (by omega)
          have hib' : ∀ x ∈ b, IsItem c.L sa.alloc.data n x := by
            intro x hx
            have := hib x hx
            refine ⟨this.1, ?_⟩
            have e := (E1.sameNode (i := x) (by
              show x < s.nNodes
              have := this.1; have := hs.n_le; omega)).nd hL
            rw [← e]
            exact this.2
          obtain ⟨E2, N2, _⟩ := makeTree_spec hc rf n _ _ b false cb sb E1.inv g2 hfb (by omega) (fun _ => hb) hib' (by simp)
          exact ⟨ih _ _ _ _ _ (hs.rng r) (ht.rng r) g1 hfa (by omega) (fun _ => ha) hia,
            ih _ _ _ _ _ E1.inv ((ht.rng r).ext hL hs.n_le E1) g2 hfb (by omega) (fun _ => hb) hib', E2.inv, hfit.mono (by omega)⟩
        by_cases hlr : l.length > rt.length
        · rw [if_pos hlr] at h ⊢
          cases g1 : makeTree rf fuel ({ s with rng := r } : Idx c) rt false with
          | error e => rw [g1] at h; cases h
          | ok x =>
            obtain ⟨ca, sa⟩ := x
            rw [g1] at h
            dsimp only at h
            cases g2 : makeTree rf fuel sa l false with
            | error e => rw [g2] at h; cases h
            | ok x =>
              obtain ⟨cb, sb⟩ := x
              rw [g2] at h
              obtain ⟨k1, k2, k3, k4⟩ := two rt l ca cb sa sb hrt hl (by omega) hiR hiL g1 g2
              rw [k1]
              dsimp only
              rw [k2]
              exact placeSplit_swap hL k3 k4 h
        · rw [if_neg hlr] at h ⊢
          cases g1 : makeTree rf fuel ({ s with rng := r } : Idx c) l false with
          | error e => rw [g1] at h; cases h
          | ok x =>
            obtain ⟨ca, sa⟩ := x
            rw [g1] at h
            dsimp only at h
            cases g2 : makeTree rf fuel sa rt false with
            | error e => rw [g2] at h; cases h
            | ok x =>
              obtain ⟨cb, sb⟩ := x
              rw [g2] at h
              obtain ⟨k1, k2, k3, k4⟩ := two l rt ca cb sa sb hl hrt (by omega) hiL hiR g1 g2
              rw [k1]
              dsimp only
              rw [k2]
              exact placeSplit_swap hL k3 k4 h

theorem swap_nd_below (hL : c.L.Ok c.C.sz) {T : Bytes} {n : Nat} {b : Bytes} {i : Nat} (hi : i < n) :
    ndAt c.L (swapBytes T (n * c.L.nodeSize) b) i = ndAt c.L T i :=
  SameNode.nd hL fun _ hj => swapBytes_below (node_lt hi hj) _

theorem swap_nd_above (hL : c.L.Ok c.C.sz) {T : Bytes} {n : Nat} {b : Bytes} {i : Nat} (hi : n ≤ i) :
    ndAt c.L (swapBytes T (n * c.L.nodeSize) b) i = ndAt c.L b i :=
  SameNode.nd hL fun _ _ => swapBytes_above (by have := Nat.mul_le_mul_right c.L.nodeSize hi; omega) _

theorem Twinned.nd (hL : c.L.Ok c.C.sz) {T : Bytes} {n : Nat} {s : Idx c} (h : s.Twinned fin T n) (i : Nat) :
    ndAt c.L (s.swap T n).alloc.data i = ndAt c.L s.alloc.data i := by
  by_cases hi : i < n
  · exact (swap_nd_below hL hi).trans (h.count i hi)
  · exact swap_nd_above hL (by omega)

theorem BInv.swap {n : Nat} {s : Idx c} (hs : s.BInv n) (T : Bytes) : (s.swap T n).BInv n := by
  refine ⟨⟨hs.memOK.fits, hs.memOK.size, hs.memOK.nodes⟩, hs.loaded, hs.nItems, hs.n_le, hs.le_size, fun x hx => ?_⟩
  have h1 : s.nNodes * c.L.nodeSize ≤ x := hx
  have h2 := Nat.mul_le_mul_right c.L.nodeSize hs.n_le
  exact (swapBytes_above (by omega) _).trans (hs.zero x h1)

theorem Slots.swap (hL : c.L.Ok c.C.sz) {m : Nat → Option (List c.N.V)} {T : Bytes} {n : Nat} {s : Idx c} (h : s.Slots m n)
    (ht : s.Twinned fin T n) : (s.swap T n).Slots m n :=
  ⟨fun i hi => (ht.nd hL i).trans (h.nd i hi), h.top⟩

/-- The loop of `ThreadBuild` over other items. -/
theorem threadLoop_swap (hc : c.WF) (D : DataBlind c fin blank) (hf0 : 0 < c.L.f) {T : Bytes} (rf tf n : Nat) (trees : Int)
    (m : Nat → Option (List c.N.V)) (B : Nat) (hB : c.L.Fits B)
    (hBT : trees ≠ -1 → n + trees.toNat * cap (liveOf m n).length ≤ B)
    (hBM : trees = -1 → 2 * n + cap (liveOf m n).length ≤ B) (lf : Nat) :
    ∀ (s : Idx c) (done rs : List Nat) (s' : Idx c),
    s.BInv n → s.Slots m n → s.Twinned fin T n → s.nNodes ≤ n + done.length * cap (liveOf m n).length →
    threadLoop rf tf trees lf s done = .ok (rs, s') →
    threadLoop rf tf trees lf (s.swap T n) done = .ok (rs, s'.swap T n) := by
  have hL := hc.layout
  have hp := hL.nodeSize_pos
  induction lf with
  | zero => intro s done rs s' _ _ _ _ h; cases h
  | succ lf ih =>
    intro s done rs s' hs hsl ht hcap h
    unfold threadLoop at h ⊢
    show (if (if trees = -1 then s.nNodes ≥ c.L.wrap (2 * s.nItems) else (done.length : Int) ≥ trees) then _ else _) = _
    by_cases hstop : (if trees = -1 then s.nNodes ≥ c.L.wrap (2 * s.nItems) else (done.length : Int) ≥ trees)
    · rw [if_pos hstop] at h ⊢
      cases h
      rfl
    · rw [if_neg hstop] at h ⊢
      rw [liveItems_eq hs hsl] at h
      rw [liveItems_eq (hs.swap T) (hsl.swap hL ht)]
      simp only [bind, Except.bind] at h ⊢
      have hgo := hstop
      rw [hs.nItems] at hgo
      have h2n : trees = -1 → c.L.wrap (2 * n) = 2 * n := by
        intro ht
        apply c.L.wrap_eq
        have := hBM ht
        have := hB.lt_range hp
        have : 1 ≤ cap (liveOf m n).length := le_max_left _ _
        omega
      have hroom : s.nNodes + cap (liveOf m n).length ≤ B := by
        by_cases ht : trees = -1
        · rw [if_pos ht, h2n ht] at hgo
          have := hBM ht
          omega
        · rw [if_neg ht] at hgo
          have h1 := hBT ht
          have h2 : done.length + 1 ≤ trees.toNat := by omega
          have h3 := Nat.mul_le_mul_right (cap (liveOf m n).length) h2
          rw [Nat.add_mul] at h3
          omega
      cases g : makeTree rf tf s (liveOf m n) true with
      | error e => rw [g] at h; cases h
      | ok x =>
        obtain ⟨root, s1⟩ := x
        rw [g] at h
        dsimp only at h
        rw [makeTree_swap hc D hf0 rf n tf s (liveOf m n) true root s1 hs ht g (hB.mono hroom) (liveOf_length_le m n) (by simp)
          (fun x hx => hsl.isItem hx)]
        obtain ⟨M1, M2, -⟩ := makeTree_spec hc rf n _ s (liveOf m n) true root s1 hs g
          (hB.mono hroom) (liveOf_length_le m n) (by simp) (fun x hx => hsl.isItem hx) (fun _ h1 hK => hsl.lone hL h1 hK)
        exact ih s1 (done ++ [root]) rs s' M1.inv (hsl.ext hL hs.n_le M1) (ht.ext hL hs.n_le M1) (by
          rw [List.length_append, List.length_singleton, Nat.add_mul]; omega) h

/-- The copies of the roots over other items. -/
theorem copyRoots_swap (hL : c.L.Ok c.C.sz) {T : Bytes} {n : Nat} (rs : List Nat) : ∀ (s : Idx c) (dst : Nat) (s' : Idx c), s.MemOK →
    dst + rs.length ≤ s.nodesSize → n ≤ dst → (∀ r ∈ rs, n ≤ r ∧ r < dst) → copyRoots s rs dst = .ok s' →
    copyRoots (s.swap T n) rs dst = .ok (s'.swap T n) := by
  induction rs with
  | nil => intro s dst s' _ _ _ _ h; cases h; rfl
  | cons r rs ih =>
    intro s dst s' hs hsz hd hr h
    rw [List.length_cons] at hsz
    have hrd := hr r (by simp)
    have g1 := (hs.getNode (i := dst) (by omega)).1
    have g2 := (hs.getNode (i := r) (by omega)).1
    have hw : c.L.wrap (dst + 1) = dst + 1 := by
      apply c.L.wrap_eq
      have h1 := hs.fits
      have h2 : s.nodesSize * 1 ≤ s.nodesSize * c.L.nodeSize :=
        Nat.mul_le_mul_left _ hL.nodeSize_pos
      by_contra hcon
      have : s.nodesSize = dst + 1 := by omega
      omega
    unfold copyRoots at h ⊢
    rw [swap_getNode, swap_getNode, g1]
    rw [g1] at h
    simp only [bind, Except.bind] at h ⊢
    rw [g2] at h ⊢
    dsimp only at h ⊢
    rw [hw] at h ⊢
    have e : (s.swap T n).write (fun b => Node.copyNode b (dst * c.L.nodeSize) b (r * c.L.nodeSize) c.L.f) =
        (s.write fun b => Node.copyNode b (dst * c.L.nodeSize) b (r * c.L.nodeSize) c.L.f).swap T n := by
      unfold Idx.swap write
      dsimp only
      congr 2
      unfold Node.copyNode
      rw [swapBytes_read (Nat.mul_le_mul_right _ hrd.1), swapBytes_write (Nat.mul_le_mul_right _ hd)]
    rw [e]
    exact ih _ (dst + 1) s' ⟨hs.fits, hs.size, hs.nodes⟩ (by
      show dst + 1 + rs.length ≤ s.nodesSize
      omega) (by omega) (fun x hx => by have := hr x (by simp [hx]); omega) h

theorem mapM_same {α β : Type} {f g : α → Except Err β} {l : List α} (h : ∀ x ∈ l, f x = g x) : l.mapM f = l.mapM g := by
  induction l with
  | nil => rfl
  | cons x l ih => rw [List.mapM_cons, List.mapM_cons, h x (by simp), ih fun y hy => h y (by simp [hy])]

/-- The end of `Build` over other items. -/
theorem buildFinish_swap (hc : c.WF) {T : Bytes} {n : Nat} {s s' : Idx c} (hs : s.BInv n) (ht : s.Twinned fin T n)
    (hfit : c.L.Fits (s.nNodes + s.roots.length)) (hr : ∀ r ∈ s.roots, n ≤ r ∧ r < s.nNodes) (h : buildFinish s = .ok s') :
    buildFinish (s.swap T n) = .ok (s'.swap T n) := by
  have hL := hc.layout
  have hw : c.L.wrap (s.nNodes + s.roots.length) = s.nNodes + s.roots.length := c.L.wrap_eq (hfit.lt_range hL.nodeSize_pos)
  obtain ⟨hm4, hn4, hn4', hd4, sz, nd, al, he4⟩ := allocateSize_spec hL hs.memOK hfit hs.zero
    (Nat.mul_le_mul_right c.L.nodeSize hs.le_size)
  have e3 : (s.allocateSize (s.nNodes + s.roots.length)).roots = s.roots := by rw [he4]
  have e4 : (s.allocateSize (s.nNodes + s.roots.length)).nNodes = s.nNodes := by rw [he4]
  have hA : (s.swap T n).allocateSize (c.L.wrap ((s.swap T n).nNodes + (s.swap T n).roots.length)) =
      (s.allocateSize (s.nNodes + s.roots.length)).swap T n := by
    rw [← hw]
    exact swap_allocateSize hs.items_le _
  unfold buildFinish at h ⊢
  rw [hA]
  rw [hw] at h
  generalize hs4 : s.allocateSize (s.nNodes + s.roots.length) = s4 at *
  have hroots : (s4.swap T n).roots = s.roots := e3
  have hnodes : (s4.swap T n).nNodes = s.nNodes := e4
  dsimp only at h ⊢
  rw [hroots, hnodes]
  rw [e3, e4] at h
  obtain ⟨s5, C1, ⟨d, C2⟩, C3, -⟩ := copyRoots_spec hc s.roots s4 s.nNodes hm4 hn4 (fun r h => (hr r h).2)
  rw [copyRoots_swap hL s.roots s4 s.nNodes s5 hm4 hn4 hs.n_le hr C1]
  rw [C1] at h
  simp only [bind, Except.bind] at h ⊢
  have hm5 : s5.MemOK := by rw [C2]; exact ⟨hm4.fits, hm4.size, hm4.nodes⟩
  have hnd : ∀ i, ndAt c.L (s5.swap T n).alloc.data i = ndAt c.L s5.alloc.data i := by
    intro i
    by_cases hi : i < n
    · refine (swap_nd_below hL hi).trans ((ht.count i hi).trans (SameNode.nd hL fun j hj => ?_))
      rw [C3 _ (Or.inl ?_), hd4]
      exact lt_of_lt_of_le (node_lt hi hj) (Nat.mul_le_mul_right _ hs.n_le)
    · exact swap_nd_above hL (by omega)
  have e5 : s5.nNodes = s.nNodes := by rw [C2]; exact e4
  have e6 : s5.roots = s.roots := by rw [C2]; exact e3
  have e7 : s5.nodesSize = s4.nodesSize := by rw [C2]; rfl
  have hcount : ∀ k : Nat, countNNS c (s5.swap T n).bmem k (s.nNodes + s.roots.length) = countNNS c s5.bmem k (s.nNodes + s.roots.length) := by
    intro k
    unfold countNNS
    rw [mapM_same fun i hi => ?_]
    have hi := List.mem_range.1 hi
    have g := (hm5.getNode (i := i) (by omega)).1
    have hb : s5.nodes = .build := hm5.nodes (by omega)
    unfold nnsOf
    rw [swap_getNode, g]
    have q1 : s5.bmem.get = s5.alloc.data := by unfold bmem; rw [hb]; rfl
    have q2 : (s5.swap T n).bmem.get = (s5.swap T n).alloc.data := by
      unfold bmem; rw [show (s5.swap T n).nodes = _ from hb]; rfl
    simp only [bind, Except.bind]
    rw [q1, q2]
    have := hnd i
    unfold ndAt at this
    rw [this]
  have hcount' : countNNS c (s5.swap T n).bmem s5.nItems (c.L.wrap (s5.nNodes + s5.roots.length)) =
      countNNS c s5.bmem s5.nItems (c.L.wrap (s5.nNodes + s5.roots.length)) := by
    rw [e5, e6, hw]
    exact hcount _
  have h : (countNNS c s5.bmem s5.nItems (c.L.wrap (s5.nNodes + s5.roots.length)) >>= fun k => Except.ok
    ({ s5 with nNodes := c.L.wrap (s5.nNodes + s5.roots.length), built := true, batchMaxNNS := k } : Idx c)) = .ok s' := h
  show (countNNS c (s5.swap T n).bmem s5.nItems (c.L.wrap (s5.nNodes + s5.roots.length)) >>= fun k => Except.ok
    ({ s5.swap T n with nNodes := c.L.wrap (s5.nNodes + s5.roots.length), built := true, batchMaxNNS := k } : Idx c)) = .ok (s'.swap T n)
  rw [hcount']
  cases hk : countNNS c s5.bmem s5.nItems (c.L.wrap (s5.nNodes + s5.roots.length)) with
  | error e =>
    rw [hk] at h
    cases h
  | ok k =>
    rw [hk] at h
    cases h
    rfl

/-- `Build` of the single policy after `buildStart`, over other items. -/
theorem buildRest_swap (hc : c.WF) (D : DataBlind c fin blank) (hf0 : 0 < c.L.f) {T : Bytes} {m : Nat → Option (List c.N.V)} {n : Nat}
    {s1 : Idx c} (hs : s1.BInv n) (hsl : s1.Slots m n) (ht : s1.Twinned fin T n) (hn1 : s1.nNodes = n) (hr : s1.roots = [])
    {rf tf lf : Nat} {trees : Int} (hfit : c.L.Fits (buildBound n trees)) {s' : Idx c}
    (h : (s1.threadBuild rf tf lf trees 0 >>= buildFinish) = .ok s') :
    ((s1.swap T n).threadBuild rf tf lf trees 0 >>= buildFinish) = .ok (s'.swap T n) := by
  have hL := hc.layout
  unfold threadBuild at h ⊢
  cases hu : threadLoop rf tf trees lf s1 [] with
  | error e => rw [hu] at h; cases h
  | ok u =>
    obtain ⟨rs, s2⟩ := u
    rw [hu] at h
    simp only [bind, Except.bind] at h ⊢
    have hlive := liveOf_length_le m n
    have hcapn : cap (liveOf m n).length ≤ 2 * n + 1 := by unfold cap; omega
    have hcap1 : 1 ≤ cap (liveOf m n).length := le_max_left _ _
    set B := if trees = -1 then 2 * n + cap (liveOf m n).length
      else n + trees.toNat * cap (liveOf m n).length with hB
    have hBle : B ≤ buildBound n trees := by
      rw [hB]; unfold buildBound
      split
      · unfold cap; omega
      · have : trees.toNat * cap (liveOf m n).length ≤ trees.toNat * (2 * n + 2) :=
          Nat.mul_le_mul_left _ (by omega)
        omega
    have hfitB : c.L.Fits B := hfit.mono hBle
    have hnB : n ≤ B := by rw [hB]; split <;> omega
    obtain ⟨T1, T2, T3, T4, T5, new, T6, T7, T8, T9, T11, T10⟩ := threadLoop_spec hc rf tf n trees m B hfitB
      (fun ht => by rw [hB, if_neg ht]) (fun ht => by rw [hB, if_pos ht]) lf s1 [] rs s2 hs hsl
      (by simp; omega) (by omega) (by simp; omega) hu
    rw [threadLoop_swap hc D hf0 rf tf n trees m B hfitB
      (fun ht => by rw [hB, if_neg ht]) (fun ht => by rw [hB, if_pos ht]) lf s1 [] rs s2 hs hsl ht (by simp; omega) hu]
    simp only [List.nil_append] at T6
    subst T6
    have hroots2 : s2.roots = [] := by rw [T1.roots, hr]
    have hfin : s2.nNodes + rs.length ≤ buildBound n trees := by
      by_cases ht : trees = -1
      · have h4 := (T4 ht).2
        simp at h4
        rw [hB, if_pos ht] at T2
        unfold buildBound
        rw [if_pos ht]
        unfold cap at T2
        omega
      · have h5 := T5 ht
        simp at h5
        rw [hB, if_neg ht] at T2
        unfold buildBound
        rw [if_neg ht, h5]
        have : trees.toNat * cap (liveOf m n).length ≤ trees.toNat * (2 * n + 1) :=
          Nat.mul_le_mul_left _ (by omega)
        have e : trees.toNat * (2 * n + 2) = trees.toNat * (2 * n + 1) + trees.toNat := by ring
        omega
    have ht2 := ht.ext hL hs.n_le T1
    have hb2 : ({ s2 with roots := s2.roots ++ rs } : Idx c).BInv n := ⟨⟨T1.inv.memOK.fits, T1.inv.memOK.size, T1.inv.memOK.nodes⟩, T1.inv.loaded,
          T1.inv.nItems, T1.inv.n_le, T1.inv.le_size, T1.inv.zero⟩
    refine buildFinish_swap hc (s := ({ s2 with roots := s2.roots ++ rs } : Idx c)) hb2 ⟨ht2.here, ht2.there, ht2.count⟩ ?_ ?_ h
    · show c.L.Fits (s2.nNodes + (s2.roots ++ rs).length)
      rw [hroots2]
      exact hfit.mono hfin
    · intro r hr
      have hr : r ∈ s2.roots ++ rs := hr
      rw [hroots2] at hr
      have := T7 r hr
      exact ⟨by omega, this.2.1⟩

end Idx
end Annoy
