import Verif.Proof.Swap
import Verif.Proof.ConcRun
/-!
# Building over other data with several workers

For a distance that does not see the data (`DataBlind`), the actions of the workers read the same from the item nodes whatever items these hold.  So every
schedule over one set of items is a schedule over the other, and writes the same nodes.
-/
namespace Annoy
namespace Conc
variable {c : Cfg} {fin : c.N.V → Prop} {blank : Bytes → Prop}

/-- The first `n` nodes of `mem` are those of `d`. -/
def Shows (c : Cfg) (d : Bytes) (n : Nat) (mem : Block) : Prop :=
  (∀ i, i < n → getNode c.L mem i = .ok (i * c.L.nodeSize)) ∧ ∀ x, x < n * c.L.nodeSize → mem.get x = d x

/-- All reads of the program give the same over the items of `d` and over those of `T`, and all writes go behind the items. -/
inductive Blind (d T : Bytes) (n B : Nat) : Prog c → Prop where
  | done : Blind d T n B .done
  | fail (e) : Blind d T n B (.fail e)
  | lockN {k} : Blind d T n B k → Blind d T n B (.lockN k)
  | unlockN {k} : Blind d T n B k → Blind d T n B (.unlockN k)
  | rlock {k} : Blind d T n B k → Blind d T n B (.rlock k)
  | runlock {k} : Blind d T n B k → Blind d T n B (.runlock k)
  | wlock {k} : Blind d T n B k → Blind d T n B (.wlock k)
  | wunlock {k} : Blind d T n B k → Blind d T n B (.wunlock k)
  | lockR {k} : Blind d T n B k → Blind d T n B (.lockR k)
  | unlockR {k} : Blind d T n B k → Blind d T n B (.unlockR k)
  | readN {k} : (∀ v, n ≤ v → v ≤ B → Blind d T n B (k v)) → Blind d T n B (.readN k)
  | setN {v k} : Blind d T n B k → Blind d T n B (.setN v k)
  | readSize {k} : (∀ v, Blind d T n B (k v)) → Blind d T n B (.readSize k)
  | grow {z k} : Blind d T n B k → Blind d T n B (.grow z k)
  | read {β : Type} {f : Block → c.R.σ → Except Err (β × c.R.σ)} {k : β → Prog c} :
      (∀ mem mem' r, Shows c d n mem → Shows c T n mem' → f mem' r = f mem r) →
      (∀ mem r x r', Shows c d n mem → f mem r = .ok (x, r') → Blind d T n B (k x)) → Blind d T n B (.read f k)
  | write {i g k} : n ≤ i → i ≤ B →
      (∀ b a, n * c.L.nodeSize ≤ a → g (swapBytes T (n * c.L.nodeSize) b) a = swapBytes T (n * c.L.nodeSize) (g b a)) →
      Blind d T n B k → Blind d T n B (.write i g k)
  | rand {ids k} : (∀ l rt, (l ++ rt).Perm ids → Blind d T n B (k l rt)) → Blind d T n B (.rand ids k)
  | readRoots {k} : (∀ rs, Blind d T n B (k rs)) → Blind d T n B (.readRoots k)
  | setRoots {rs k} : Blind d T n B k → Blind d T n B (.setRoots rs k)

/-! ### one action -/

theorem swap_reallocate {T : Bytes} {z : Nat} {a : Alloc} (h : z ≤ a.size) (k : Nat) :
    ({ a with data := swapBytes T z a.data } : Alloc).reallocate k =
      { a.reallocate k with data := swapBytes T z (a.reallocate k).data } := by
  unfold Alloc.reallocate
  dsimp only
  split
  · rfl
  · congr 1
    refine Bytes.ext' fun x => ?_
    show (if x < a.size then (if x < z then T x else a.data x) else 0) =
      if x < z then T x else (if x < a.size then a.data x else 0)
    by_cases h1 : x < z
    · rw [if_pos (by omega), if_pos h1, if_pos h1]
    · rw [if_neg h1, if_neg h1]

theorem Blind.step {d T : Bytes} {n B : Nat} (hB : B * c.L.nodeSize < c.L.range) {o : List Held} {s s' : Idx c} {h h' : Held} {p p' : Prog c}
    (b : Blind d T n B p) (hn : n ≤ s.nNodes) (hN : s.nNodes ≤ B) (hz : n * c.L.nodeSize ≤ s.alloc.size)
    (h1 : Shows c d n s.bmem) (h2 : Shows c T n (s.swap T n).bmem) (st : TStep o s h p s' h' p') :
    TStep o (s.swap T n) h p (s'.swap T n) h' p' ∧ Blind d T n B p' := by
  cases st with
  | lockN q1 q2 => cases b with | lockN b => exact ⟨.lockN q1 q2, b⟩
  | unlockN q1 => cases b with | unlockN b => exact ⟨.unlockN q1, b⟩
  | rlock q1 q2 q3 => cases b with | rlock b => exact ⟨.rlock q1 q2 q3, b⟩
  | runlock q1 => cases b with | runlock b => exact ⟨.runlock q1, b⟩
  | announce q1 q2 => exact ⟨.announce q1 q2, b⟩
  | wlock q1 q2 q3 => cases b with | wlock b => exact ⟨.wlock q1 q2 q3, b⟩
  | wunlock q1 => cases b with | wunlock b => exact ⟨.wunlock q1, b⟩
  | lockR q1 q2 => cases b with | lockR b => exact ⟨.lockR q1 q2, b⟩
  | unlockR q1 => cases b with | unlockR b => exact ⟨.unlockR q1, b⟩
  | readN => cases b with | readN b => exact ⟨.readN, b _ hn hN⟩
  | setN => cases b with | setN b => exact ⟨.setN, b⟩
  | readSize => cases b with | readSize b => exact ⟨.readSize, b _⟩
  | growBegin q => exact ⟨.growBegin q, b⟩
  | growEnd q =>
    cases b with
    | grow b =>
      refine ⟨?_, b⟩
      have := TStep.growEnd (c := c) (o := o) (s := s.swap T n) (z := by assumption) (k := p') q
      unfold Idx.swap Idx.write at this ⊢
      dsimp only at this ⊢
      rw [swap_reallocate hz] at this
      exact this
  | read r r' e =>
    cases b with
    | read b1 b2 => exact ⟨.read r r' ((b1 _ _ r h1 h2).trans e), b2 _ _ _ _ h1 e⟩
  | readErr r e =>
    cases b with
    | read b1 b2 => exact ⟨.readErr r ((b1 _ _ r h1 h2).trans e), .fail _⟩
  | write e =>
    rename_i i g a
    cases b with
    | write b1 b2 b3 b =>
      refine ⟨?_, b⟩
      have e' : getNode c.L (s.swap T n).bmem i = .ok a := by rw [Idx.swap_getNode]; exact e
      have := TStep.write (c := c) (o := o) (h := h) (g := g) (k := p') e'
      have ha : n * c.L.nodeSize ≤ a := by
        obtain ⟨rfl, -⟩ := Idx.getNode_ok e
        rw [c.L.addr_eq (lt_of_le_of_lt (Nat.mul_le_mul_right _ b2) hB)]
        exact Nat.mul_le_mul_right _ b1
      have e2 : (s.swap T n).write (fun b => g b a) = (s.write fun b => g b a).swap T n := by
        unfold Idx.swap Idx.write
        dsimp only
        rw [b3 _ _ ha]
      rw [e2] at this
      exact this
  | writeErr e =>
    exact ⟨.writeErr (by rw [Idx.swap_getNode]; exact e), .fail _⟩
  | rand r r' e q =>
    cases b with
    | rand b => exact ⟨.rand r r' e q, b _ _ (Idx.assignSides_perm _ _ _ e)⟩
  | spin r r' e q => exact ⟨.spin r r' e q, b⟩
  | readRoots => cases b with | readRoots b => exact ⟨.readRoots, b _⟩
  | setRoots => cases b with | setRoots b => exact ⟨.setRoots, b⟩

/-! ### the programs -/

section
variable {d T : Bytes} {n B : Nat}

theorem takeNode_blind {k : Nat → Prog c} (hk : ∀ i, n ≤ i → i ≤ B → Blind d T n B (k i)) : Blind d T n B (Prog.takeNode k) := by
  have rest : Blind d T n B (.readN fun item => .readN fun v => .setN (c.L.wrap (v + 1)) (.unlockN (k item)) : Prog c) :=
    .readN fun i h1 h2 => .readN fun _ _ _ => .setN (.unlockN (hk i h1 h2))
  unfold Prog.takeNode
  refine .lockN (.readN fun v _ _ => .readSize fun z => ?_)
  split
  · exact .wlock (.readSize fun z => .grow (.wunlock rest))
  · exact rest

theorem bucket_blind {m : Nat} {ids : List Nat} {isRoot : Bool} {k : Nat → Prog c} (hk : ∀ i, Blind d T n B (k i)) :
    Blind d T n B (Prog.bucket m ids isRoot k) := by
  refine takeNode_blind fun i h1 h2 => .rlock (.write h1 h2 (fun _ _ ha => swapBytes_write ha _ _) ?_)
  dsimp only
  split
  · exact .write h1 h2 (fun _ _ ha => swapBytes_write (by omega) _ _) (.runlock (hk i))
  · exact .runlock (hk i)

theorem place_blind {m : Bytes} {k : Nat → Prog c} (hk : ∀ i, Blind d T n B (k i)) : Blind d T n B (Prog.place m k) :=
  takeNode_blind fun i h1 h2 => .rlock (.write h1 h2 (fun _ _ ha => swapBytes_write ha _ _) (.runlock (hk i)))

/-- Slot `i` holds an item with finite components in `d` and in `T`. -/
structure Twin (c : Cfg) (fin : c.N.V → Prop) (d T : Bytes) (n i : Nat) : Prop where
  lt : i < n
  here : ∃ v, ItemAt c d (i * c.L.nodeSize) v ∧ ∀ x ∈ v, fin x
  there : ∃ v, ItemAt c T (i * c.L.nodeSize) v ∧ ∀ x ∈ v, fin x

theorem Shows.item (hL : c.L.Ok c.C.sz) {mem : Block} (h : Shows c d n mem) {i : Nat} (hi : i < n) {v : List c.N.V}
    (hv : ItemAt c d (i * c.L.nodeSize) v) : ItemAt c mem.get (i * c.L.nodeSize) v :=
  hv.congr hL fun _ hj => h.2 _ (Idx.node_lt hi hj)

theorem sideOfItem_blind (hL : c.L.Ok c.C.sz) (D : DataBlind c fin blank) (hf0 : 0 < c.L.f) {m : Bytes} (hm : blank m) {mem : Block} (h : Shows c d n mem)
    {i : Nat} (hi : i < n) (hv : ∃ v, ItemAt c d (i * c.L.nodeSize) v ∧ ∀ x ∈ v, fin x) (r : c.R.σ) :
    Idx.sideOfItem c mem m i r = .ok (c.R.nextSide r) := by
  obtain ⟨v, h1, h2⟩ := hv
  have e := h.item hL hi h1
  unfold Idx.sideOfItem
  rw [h.1 i hi]
  simp only [bind, Except.bind]
  rw [e.vec]
  exact D.side _ _ _ hm hf0 (by rw [← e.vec]; simp) h2

theorem sides_blind (hL : c.L.Ok c.C.sz) (D : DataBlind c fin blank) (hf0 : 0 < c.L.f) {m : Bytes} (hm : blank m) : ∀ {ids : List Nat} {k : List Nat → List Nat → Prog c},
    (∀ i ∈ ids, Twin c fin d T n i) → (∀ l rt, (l ++ rt).Perm ids → Blind d T n B (k l rt)) → Blind d T n B (Prog.sides m ids k)
  | [], k, _, hk => hk [] [] (List.Perm.refl _)
  | j :: js, k, ht, hk => by
    have tj := ht j (by simp)
    refine .read (fun mem mem' r h1 h2 => ?_) fun mem r sd r' h1 e => sides_blind hL D hf0 hm (fun i hi => ht i (by simp [hi])) fun l rt hp => ?_
    · exact (sideOfItem_blind hL D hf0 hm h2 tj.lt tj.there r).trans (sideOfItem_blind hL D hf0 hm h1 tj.lt tj.here r).symm
    · cases sd with
      | left => exact hk _ _ (hp.cons j)
      | right => exact hk _ _ (List.perm_middle.trans (hp.cons j))

theorem attempts_blind (hL : c.L.Ok c.C.sz) (D : DataBlind c fin blank) (hf0 : 0 < c.L.f) {ids : List Nat} (ht : ∀ i ∈ ids, Twin c fin d T n i)
    {k : Bytes → List Nat → List Nat → Prog c} (j : Nat) : ∀ (m : Bytes) (l rt : List Nat), blank m →
    (∀ m l rt, (l ++ rt).Perm ids → Blind d T n B (k m l rt)) → (j = 0 → (l ++ rt).Perm ids) →
    Blind d T n B (Prog.attempts (ids.map (· * c.L.nodeSize)) ids j m l rt k) := by
  have hd : ∀ {mem : Block}, Shows c d n mem → ∀ a ∈ ids.map (· * c.L.nodeSize), ∃ v, ItemAt c mem.get a v := by
    intro mem h a ha
    obtain ⟨i, hi, rfl⟩ := List.mem_map.1 ha
    obtain ⟨v, hv, -⟩ := (ht i hi).here
    exact ⟨v, h.item hL (ht i hi).lt hv⟩
  have hT : ∀ {mem : Block}, Shows c T n mem → ∀ a ∈ ids.map (· * c.L.nodeSize), ∃ v, ItemAt c mem.get a v := by
    intro mem h a ha
    obtain ⟨i, hi, rfl⟩ := List.mem_map.1 ha
    obtain ⟨v, hv, -⟩ := (ht i hi).there
    exact ⟨v, h.item hL (ht i hi).lt hv⟩
  induction j with
  | zero => intro m l rt _ hk hp; exact hk m l rt (hp rfl)
  | succ j ih =>
    intro m l rt hm hk _
    refine .read (fun mem mem' r h1 h2 => D.split _ _ _ _ _ (hT h2) (hd h1)) fun mem r m' r' h1 e => ?_
    have hm' := D.used _ _ _ _ _ _ (hd h1) hm e
    refine sides_blind hL D hf0 hm' ht fun l rt hp => ?_
    split
    · exact hk _ _ _ hp
    · exact ih m' l rt hm' hk fun _ => hp

theorem choose_blind (hL : c.L.Ok c.C.sz) (D : DataBlind c fin blank) (hf0 : 0 < c.L.f) {ids : List Nat} (ht : ∀ i ∈ ids, Twin c fin d T n i)
    {k : Bytes → List Nat → List Nat → Prog c} (hk : ∀ m l rt, (l ++ rt).Perm ids → Blind d T n B (k m l rt)) :
    Blind d T n B (Prog.choose ids k) := by
  have hm : ∀ {e : Bytes} {mem : Block}, Shows c e n mem → ids.mapM (getNode c.L mem) = .ok (ids.map (· * c.L.nodeSize)) :=
    fun h => mapM_ok fun i hi => h.1 i (ht i hi).lt
  refine .rlock (.read (fun mem mem' r h1 h2 => ?_) fun mem r addrs r' h1 e => ?_)
  · rw [hm h1, hm h2]
  · rw [hm h1] at e
    simp only [bind, Except.bind, Except.ok.injEq, Prod.mk.injEq] at e
    rw [← e.1]
    refine attempts_blind hL D hf0 ht 3 _ _ _ D.fresh (fun m l rt hp => .runlock ?_) (by simp)
    split
    · exact hk _ _ _ hp
    · exact .rand fun l rt hp => hk _ _ _ hp

theorem makeTree_blind (hL : c.L.Ok c.C.sz) (D : DataBlind c fin blank) (hf0 : 0 < c.L.f) (m fuel : Nat) : ∀ (ids : List Nat) (isRoot : Bool) (k : Nat → Prog c),
    (∀ i ∈ ids, Twin c fin d T n i) → (∀ i, Blind d T n B (k i)) → Blind d T n B (Prog.makeTree m fuel ids isRoot k) := by
  induction fuel with
  | zero => intro ids isRoot k _ _; exact .fail _
  | succ fuel ih =>
    intro ids isRoot k ht hk
    unfold Prog.makeTree
    split
    · exact hk _
    · split
      · exact bucket_blind hk
      · refine choose_blind hL D hf0 ht fun m l rt hp => ?_
        have hl : ∀ i ∈ l, Twin c fin d T n i := fun i hi => ht i (hp.mem_iff.1 (by simp [hi]))
        have hr : ∀ i ∈ rt, Twin c fin d T n i := fun i hi => ht i (hp.mem_iff.1 (by simp [hi]))
        dsimp only
        split
        · exact ih _ _ _ hr fun cr => ih _ _ _ hl fun cl => place_blind hk
        · exact ih _ _ _ hl fun cl => ih _ _ _ hr fun cr => place_blind hk

theorem scan_blind (hL : c.L.Ok c.C.sz) (hnd : ∀ i, i < n → ndAt c.L T i = ndAt c.L d i)
    (ht : ∀ i, i < n → 1 ≤ ndAt c.L d i → Twin c fin d T n i) : ∀ {is acc : List Nat} {k : List Nat → Prog c},
    (∀ i ∈ is, i < n) → (∀ i ∈ acc, Twin c fin d T n i) → (∀ ids, (∀ i ∈ ids, Twin c fin d T n i) → Blind d T n B (k ids)) →
    Blind d T n B (Prog.scan is acc k)
  | [], acc, k, _, ha, hk => hk acc ha
  | i :: is, acc, k, hi, ha, hk => by
    have hin := hi i (by simp)
    have e : ∀ {e : Bytes} {mem : Block} (r : c.R.σ), Shows c e n mem →
        (do
          let a ← getNode c.L mem i
          Except.ok (Node.nDesc c.L mem.get a, r) : Except Err (Nat × c.R.σ)) = .ok (ndAt c.L e i, r) := by
      intro e mem r h
      rw [h.1 i hin]
      have : ndAt c.L mem.get i = ndAt c.L e i := SameNode.nd hL fun _ hj => h.2 _ (Idx.node_lt hin hj)
      rw [← this]
      rfl
    refine .read (fun mem mem' r h1 h2 => ?_) fun mem r nd r' h1 e1 => ?_
    · rw [e r h1, e r h2, hnd i hin]
    · rw [e r h1] at e1
      simp only [Except.ok.injEq, Prod.mk.injEq] at e1
      rw [← e1.1]
      refine scan_blind hL hnd ht (fun j hj => hi j (by simp [hj])) ?_ hk
      split
      · intro j hj
        rcases List.mem_append.1 hj with hj | hj
        · exact ha j hj
        · rw [List.mem_singleton.1 hj]
          exact ht i hin (by assumption)
      · exact ha

theorem thread_blind (hL : c.L.Ok c.C.sz) (D : DataBlind c fin blank) (hf0 : 0 < c.L.f) (hnd : ∀ i, i < n → ndAt c.L T i = ndAt c.L d i)
    (ht : ∀ i, i < n → 1 ≤ ndAt c.L d i → Twin c fin d T n i) (trees : Int) (fuel : Nat) :
    ∀ rs : List Nat, Blind d T n B (Prog.thread (c := c) n trees fuel rs) := by
  induction fuel with
  | zero => intro rs; exact .fail _
  | succ fuel ih =>
    intro rs
    have go : Blind d T n B (.rlock <| Prog.scan (List.range n) [] fun ids => .runlock <|
        Prog.makeTree n (n + 2) ids true fun root => Prog.thread n trees fuel (rs ++ [root]) : Prog c) :=
      .rlock (scan_blind hL hnd ht (fun i hi => List.mem_range.1 hi) (by simp) fun ids hids =>
        .runlock (makeTree_blind hL D hf0 _ _ _ _ _ hids fun root => ih _))
    have stop : Blind d T n B (.lockR <| .readRoots fun old => .setRoots (old ++ rs) <| .unlockR .done : Prog c) :=
      .lockR (.readRoots fun _ => .setRoots (.unlockR .done))
    unfold Prog.thread
    dsimp only
    split
    · refine .lockN (.readN fun v _ _ => .unlockN ?_)
      split
      · exact stop
      · exact go
    · split
      · exact stop
      · exact go

end

/-! ### all workers -/

/-- The workers over other items. -/
def _root_.Annoy.Conf.swap (T : Bytes) (n : Nat) (x : Conf c) : Conf c := ⟨x.idx.swap T n, x.ths⟩

theorem steps_swap (hc : c.WF) {P : Par} {d T : Bytes} (hB : c.L.Fits P.B) {x y : Conf c} (hx : Good P d x)
    (hb : ∀ t ∈ x.ths, Blind d T P.n P.B t.2) (st : Steps x y) :
    Steps (x.swap T P.n) (y.swap T P.n) ∧ ∀ t ∈ y.ths, Blind d T P.n P.B t.2 := by
  induction st with
  | refl => exact ⟨.refl _, hb⟩
  | @tail y z st1 st ih =>
    obtain ⟨ih1, ih2⟩ := ih
    obtain ⟨ts, pub, e, I⟩ := hx.steps hc st1
    cases st with
    | mk pre post st =>
      rename_i s s' h h' p p'
      have hn := I.base.n_le
      have hN : s.nNodes ≤ P.B := by
        have : s.nNodes + _ ≤ P.B := I.credit
        omega
      have hsize := I.base.le_size
      have hget : ∀ i, i < P.n → getNode c.L s.bmem i = .ok (i * c.L.nodeSize) := fun i hi =>
        (I.base.memOK.getNode (by
          have h1 : P.n ≤ s.nNodes := hn
          have h2 : s.nNodes ≤ s.nodesSize := hsize
          show i < s.nodesSize
          omega)).1
      have hbuild : ∀ x, x < P.n * c.L.nodeSize → s.nodes = .build := by
        intro x hx
        have h0 : 0 < P.n := by
          by_contra h0
          have : P.n = 0 := by omega
          rw [this] at hx
          omega
        exact I.base.memOK.nodes (by
          have h1 : P.n ≤ s.nNodes := hn
          have h2 : s.nNodes ≤ s.nodesSize := hsize
          show 0 < s.nodesSize
          omega)
      have h1 : Shows c d P.n s.bmem := by
        refine ⟨hget, fun x hx => ?_⟩
        unfold Idx.bmem
        rw [hbuild x hx]
        exact I.items x hx
      have h2 : Shows c T P.n (s.swap T P.n).bmem := by
        refine ⟨fun i hi => by rw [Idx.swap_getNode]; exact hget i hi, fun x hx => ?_⟩
        have e : (s.swap T P.n).nodes = .build := hbuild x hx
        unfold Idx.bmem
        rw [e]
        exact swapBytes_below hx _
      obtain ⟨g1, g2⟩ := (ih2 (h, p) (by simp)).step (hB.mul_lt) hn hN I.base.items_le h1 h2 st
      refine ⟨.tail ih1 (.mk pre post g1), ?_⟩
      intro t ht
      rcases List.mem_append.1 ht with ht | ht
      · exact ih2 t (by simp [ht])
      · rcases List.mem_cons.1 ht with rfl | ht
        · exact g2
        · exact ih2 t (by simp [ht])

end Conc
end Annoy
