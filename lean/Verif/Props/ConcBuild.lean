import Verif.Proof.ConcBuild
import Verif.Props.ConcSave
import Verif.Props.Conc
/-!
# C120: searches while the index is built
-/
namespace Annoy

/-- A memory that agrees with another one, step by step. -/
theorem Search.Agree.trans {c : Cfg} {mem mem' mem'' : Block} {n n' n'' : Nat} {P : Nat → Prop} (h : Search.Agree c mem mem' n n' P)
    (h1 : ∀ i, P i → ∃ a, getNode c.L mem' i = .ok a ∧ getNode c.L mem'' i = .ok a ∧ ∀ j, j < c.L.nodeSize → mem'.get (a + j) = mem''.get (a + j))
    (h2 : ∀ i, P i → n' = n'') : Search.Agree c mem mem'' n n'' P := by
  refine ⟨fun i hi => ?_, fun i hi a ha hd => ?_, h.bucket, h.inner⟩
  · obtain ⟨a, a1, a2, a3⟩ := h.node i hi
    obtain ⟨b, b1, b2, b3⟩ := h1 i hi
    rw [a2] at b1
    cases b1
    exact ⟨a, a1, b2, fun j hj => (a3 j hj).trans (b3 j hj)⟩
  · rw [← h2 i hi]
    exact h.item i hi a ha hd

/-- The second memory agrees with itself. -/
theorem Search.Agree.self {c : Cfg} (hc : c.WF) {mem mem' : Block} {n n' : Nat} {P : Nat → Prop} (h : Search.Agree c mem mem' n n' P) :
    Search.Agree c mem' mem' n' n' P := by
  refine ⟨fun i hi => ?_, fun _ _ _ _ _ => Iff.rfl, fun i hi a ha hK hno => ?_, fun i hi a ha hK => ?_⟩
  · obtain ⟨a, -, a2, -⟩ := h.node i hi
    exact ⟨a, a2, a2, fun _ _ => rfl⟩
  · obtain ⟨b, b1, b2, b3⟩ := h.node i hi
    rw [b2] at ha
    cases ha
    have hnd := Search.nDesc_same hc b3
    rw [← hnd] at hK hno
    rw [← Search.children_same hc hK b3]
    exact h.bucket i hi _ b1 hK fun h' => hno ⟨h'.1, (h.item i hi _ b1 h'.1).1 h'.2⟩
  · obtain ⟨b, b1, b2, b3⟩ := h.node i hi
    rw [b2] at ha
    cases ha
    have hnd := Search.nDesc_same hc b3
    rw [← hnd] at hK
    have h2 := hc.layout.K_ge
    rw [← Search.child_same hc (by omega) b3, ← Search.child_same hc (by omega) b3]
    exact h.inner i hi _ b1 hK

theorem Search.Agree.mono {c : Cfg} {mem : Block} {n : Nat} : Search.Agree c mem mem n n (fun _ => False) :=
  ⟨fun _ h => h.elim, fun _ h => h.elim, fun _ h => h.elim, fun _ h => h.elim⟩

namespace ConcBuild
open ConcSearch
variable {c : Cfg}

/-- An index and some queries, before anything happens. -/
def State.of (s : Idx c) (ctxs : Nat → Ctx c) (qs : List (Query c)) : State c :=
  State.start s ctxs (qs.map fun q => (q.vector, q.numReturn, q.numInspect, q.ctx))

/-- The index, as if the trees with these roots were all. -/
def _root_.Annoy.Idx.withRoots (s : Idx c) (roots : List Nat) : Idx c := { s with roots := roots }

/-- Where a search is: it went the way it goes alone, on nodes in `Q` that are still what they were when it began. -/
def On (s : Idx c) (w : World) (Q : Nat → Prop) (q : Query c) (ctx0 ctx : Ctx c) : Option (Call c × Task c) → Prop
  | none => ctx = ctx0
  | some (k, task) => k.query = q.vector ∧ k.numReturn = q.numReturn ∧ k.numInspect = q.numInspect ∧ k.roots <+: s.roots ∧
      ∃ m P, (∀ i, P i → Q i) ∧ (∀ r ∈ k.roots, P r) ∧ Search.Agree c k.mem (s.mem w) k.nItems s.nItems P ∧
        ConcSave.Inside P ctx task ∧ (task, ctx) = k.next^[m] (k.start, ctx0)

/-- Nodes `Q` of an index can be searched. -/
structure Seen (s : Idx c) (w : World) (Q : Nat → Prop) : Prop where
  roots : ∀ r ∈ s.roots, Q r
  self : Search.Agree c (s.mem w) (s.mem w) s.nItems s.nItems Q

/-- The searches in a state. -/
structure SInv (w : World) (ctxs : Nat → Ctx c) (qs : List (Query c)) (x : State c) (Q : Nat → Prop) : Prop where
  seen : Seen x.idx w Q
  len : x.searches.length = qs.length
  search : ∀ (n : Nat) (q : Query c), qs[n]? = some q → ∃ u : ConcSave.Search c, x.searches[n]? = some u ∧ u.query = q.vector ∧ u.numReturn = q.numReturn ∧
    u.numInspect = q.numInspect ∧ u.ctx = q.ctx ∧ On x.idx w Q q (ctxs q.ctx) (x.ctxs q.ctx) u.at?

section
variable {w : World} {ctxs : Nat → Ctx c} {qs : List (Query c)}

/-- The index changes. -/
theorem SInv.move {x y : State c} {Q Q' : Nat → Prop} (h : SInv w ctxs qs x Q) (h1 : y.searches = x.searches) (h2 : y.ctxs = x.ctxs)
    (hs : Seen y.idx w Q') (hQ : ∀ i, Q i → Q' i) (hr : x.idx.roots <+: y.idx.roots)
    (hm : ∀ i, Q i → ∃ a, getNode c.L (x.idx.mem w) i = .ok a ∧ getNode c.L (y.idx.mem w) i = .ok a ∧
      ∀ j, j < c.L.nodeSize → (x.idx.mem w).get (a + j) = (y.idx.mem w).get (a + j))
    (hn : ∀ i, Q i → x.idx.nItems = y.idx.nItems) : SInv w ctxs qs y Q' := by
  refine ⟨hs, by rw [h1]; exact h.len, fun n q hq => ?_⟩
  obtain ⟨u, a1, a2, a3, a4, a5, a6⟩ := h.search n q hq
  refine ⟨u, by rw [h1]; exact a1, a2, a3, a4, a5, ?_⟩
  rw [h2]
  generalize u.at? = o at a6
  cases o with
  | none => exact a6
  | some p =>
    obtain ⟨k, task⟩ := p
    obtain ⟨b1, b2, b3, b4, m, P, b5, b6, b7, b8, b9⟩ := a6
    exact ⟨b1, b2, b3, b4.trans hr, m, P, fun i hi => hQ i (b5 i hi), b6, b7.trans (fun i hi => hm i (b5 i hi)) (fun i hi => hn i (b5 i hi)), b8, b9⟩

/-- A step of a search, seen from the search. -/
theorem On.step (hc : c.WF) {s : Idx c} {Q : Nat → Prop} (hs : Seen s w Q) {q : Query c} {ctx0 ctx : Ctx c} {a : Option (Call c × Task c)}
    (h : On s w Q q ctx0 ctx a) :
    match a with
    | none =>
      let k := s.searchCall w q.vector q.numReturn q.numInspect
      On s w Q q ctx0 ctx (some (k, k.start))
    | some (k, task) =>
      let r := { k with mem := s.mem w, nItems := s.nItems }.step task ctx
      On s w Q q ctx0 r.2 (some (k, r.1)) := by
  cases a with
  | none =>
    refine ⟨rfl, rfl, rfl, List.prefix_refl _, 0, Q, fun _ h => h, hs.roots, hs.self, ConcSave.Inside.start hs.roots, ?_⟩
    rw [show ctx = ctx0 from h]
    rfl
  | some p =>
    obtain ⟨k, task⟩ := p
    obtain ⟨b1, b2, b3, b4, m, P, b5, b6, b7, b8, b9⟩ := h
    obtain ⟨f1, f2⟩ := ConcSave.step_congr hc b7 b8
    refine ⟨b1, b2, b3, b4, m + 1, P, b5, b6, b7, ?_, ?_⟩
    · rw [f1]
      exact f2
    · rw [Function.iterate_succ_apply', ← b9, f1]
      rfl

theorem SInv.search_step (hc : c.WF) (hn : (qs.map Query.ctx).Nodup) {x : State c} {Q : Nat → Prop} (h : SInv w ctxs qs x Q) (n : Nat) :
    SInv w ctxs qs (x.search w n) Q := by
  have hidx : (x.search w n).idx = x.idx := rfl
  cases hu : x.searches[n]? with
  | none =>
    have e : x.search w n = x := by
      unfold State.search ConcSave.State.search
      dsimp only
      rw [hu]
    rw [e]
    exact h
  | some u =>
    have hlt := (List.getElem?_eq_some_iff.1 hu).1
    obtain ⟨q, hq⟩ : ∃ q, qs[n]? = some q := ⟨_, List.getElem?_eq_getElem (by rw [← h.len]; exact hlt)⟩
    obtain ⟨u', a1, a2, a3, a4, a5, a6⟩ := h.search n q hq
    rw [hu] at a1
    cases a1
    have hne : ∀ m q', m ≠ n → qs[m]? = some q' → q'.ctx ≠ u.ctx := by
      intro m q' hm hq' e
      rw [a5] at e
      apply hm
      obtain ⟨l1, e1⟩ := List.getElem?_eq_some_iff.1 hq'
      obtain ⟨l2, e2⟩ := List.getElem?_eq_some_iff.1 hq
      refine (hn.getElem_inj_iff (hi := by simpa using l1) (hj := by simpa using l2)).1 ?_
      simp only [List.getElem_map, e1, e2]
      exact e
    cases hat : u.at? with
    | none =>
      rw [hat] at a6
      have hst := a6.step hc h.seen
      have e : x.search w n = { x with searches := x.searches.set n { u with
          at? := some (x.idx.searchCall w u.query u.numReturn u.numInspect, (x.idx.searchCall w u.query u.numReturn u.numInspect).start) } } := by
        unfold State.search ConcSave.State.search
        dsimp only
        rw [hu]
        dsimp only
        rw [hat]
      rw [e]
      refine ⟨h.seen, by simpa using h.len, fun m q' hq' => ?_⟩
      by_cases hm : m = n
      · subst hm
        rw [hq] at hq'
        cases hq'
        refine ⟨_, List.getElem?_set_self hlt, a2, a3, a4, a5, ?_⟩
        dsimp only
        rw [a2, a3, a4]
        exact hst
      · obtain ⟨u', b1, b2, b3, b4, b5, b6⟩ := h.search m q' hq'
        exact ⟨u', by dsimp only; rw [List.getElem?_set_ne (fun e => hm e.symm)]; exact b1, b2, b3, b4, b5, b6⟩
    | some p =>
      obtain ⟨k, task⟩ := p
      rw [hat] at a6
      have hst := a6.step hc h.seen
      have e : x.search w n = { x with
          ctxs := fun i => if i = u.ctx then (Call.step { k with mem := x.idx.mem w, nItems := x.idx.nItems } task (x.ctxs u.ctx)).2 else x.ctxs i
          searches := x.searches.set n { u with
            at? := some (k, (Call.step { k with mem := x.idx.mem w, nItems := x.idx.nItems } task (x.ctxs u.ctx)).1) } } := by
        unfold State.search ConcSave.State.search
        dsimp only
        rw [hu]
        dsimp only
        rw [hat]
      rw [e]
      refine ⟨h.seen, by simpa using h.len, fun m q' hq' => ?_⟩
      by_cases hm : m = n
      · subst hm
        rw [hq] at hq'
        cases hq'
        refine ⟨_, List.getElem?_set_self hlt, a2, a3, a4, a5, ?_⟩
        dsimp only
        rw [a5, if_pos rfl]
        exact hst
      · obtain ⟨u', b1, b2, b3, b4, b5, b6⟩ := h.search m q' hq'
        refine ⟨u', by dsimp only; rw [List.getElem?_set_ne (fun e => hm e.symm)]; exact b1, b2, b3, b4, b5, ?_⟩
        dsimp only
        rw [if_neg (hne m q' hm hq')]
        exact b6

/-- The way of a search on the memory as it is now. -/
theorem iterate_congr (hc : c.WF) {k : Call c} {mem' : Block} {n' : Nat} {P : Nat → Prop} (h : Search.Agree c k.mem mem' k.nItems n' P)
    (hr : ∀ r ∈ k.roots, P r) (x : Ctx c) (m : Nat) :
    (Call.next { k with mem := mem', nItems := n' })^[m] (k.start, x) = k.next^[m] (k.start, x) ∧
      ConcSave.Inside P (k.next^[m] (k.start, x)).2 (k.next^[m] (k.start, x)).1 := by
  induction m with
  | zero => exact ⟨rfl, ConcSave.Inside.start hr⟩
  | succ m ih =>
    rw [Function.iterate_succ_apply', Function.iterate_succ_apply', ih.1]
    exact ConcSave.step_congr hc h ih.2
end

/-! ### the goroutine in `Build` and its workers -/

section
variable {s s1 : Idx c} {trees : Int} {W : Nat} {m : Nat → Option (List c.N.V)} {n : Nat} {w : World}

/-- What is known of the index in a state, and the nodes that can be searched. -/
inductive Stage (P : Conc.Par) (s s1 : Idx c) (trees : Int) (W : Nat) : State c → (Nat → Prop) → Prop where
  | before {x} : x.phase = .before → x.idx = s → Stage P s s1 trees W x fun _ => False
  | working {x ts pub} : x.phase = .working → Annoy.Steps (startWorkers s1 trees W) ⟨x.idx, x.ths⟩ →
      x.ths = ts.map (fun t => (t.h, t.p)) → Conc.Inv P s1.alloc.data x.idx ts pub → Conc.Told ts →
      Stage P s s1 trees W x fun i => i < P.n ∨ Conc.Pub ts i
  | after {x s0 ts pub} : x.phase = .after → s.BuildsMulti trees W x.idx → Conc.Inv P s1.alloc.data s0 ts pub → Conc.Told ts →
      x.idx.MemOK → x.idx.nItems = P.n → s0.nNodes ≤ x.idx.nodesSize → x.idx.roots = s0.roots →
      (∀ i, i < P.n ∨ Conc.Pub ts i → SameNode c.L s0.alloc.data x.idx.alloc.data i) →
      Stage P s s1 trees W x fun i => i < P.n ∨ Conc.Pub ts i

/-- The parameters of the workers. -/
abbrev par (c : Cfg) (m : Nat → Option (List c.N.V)) (n : Nat) (trees : Int) (W : Nat) : Conc.Par :=
  ⟨n, Conc.room n (liveOf m n) trees W, liveOf m n, Conc.Total c, (List.range W).map (share trees W)⟩

theorem steps (hc : c.WF) (hs : s.ItemInv m n) (hb : s.built = false) (hr : s.roots = []) (hfit : c.L.Fits (Conc.multiBound n trees W))
    (hD : c.L.Deep (Conc.multiBound n trees W) ∨ n ≤ c.L.K) (h1 : s.buildStart = .ok s1) {ctxs : Nat → Ctx c} {qs : List (Query c)}
    (hn : (qs.map Query.ctx).Nodup) {x : State c} (st : Steps w trees W (State.of s ctxs qs) x) :
    ∃ Q, Stage (par c m n trees W) s s1 trees W x Q ∧ SInv w ctxs qs x Q := by
  have hL := hc.layout
  have hroom := Conc.room_le n m trees W
  obtain ⟨s1', hstart, hinv1, hsl1, hn1, hb1, hr1, _, hitems1, hgaps1, hpre⟩ := Idx.buildStart_spec hc hs hb
  rw [h1] at hstart
  injection hstart with e
  subst e
  have low : ∀ i, i < (par c m n trees W).n → ndAt c.L s1.alloc.data i ≤ 1 := by
    intro i hi
    rw [hsl1.nd i hi]
    split <;> omega
  have hD' : c.L.Deep (par c m n trees W).B ∨ (par c m n trees W).n ≤ c.L.K := hD.imp_left fun h => ⟨h.1, hroom.trans h.2⟩
  induction st with
  | refl =>
    refine ⟨_, .before rfl rfl, ⟨fun r h => ?_, .mono⟩, by simp [State.of, State.start], fun n q hq => ?_⟩
    · rw [show (State.of s ctxs qs).idx.roots = [] from hr] at h
      cases h
    · exact ⟨⟨q.vector, q.numReturn, q.numInspect, q.ctx, none⟩, by simp [State.of, State.start, hq], rfl, rfl, rfl, rfl, rfl⟩
  | tail _ st ih =>
    rename_i x y _
    obtain ⟨Q, hst, hsi⟩ := ih
    cases st with
    | start hph hbs =>
      rename_i s2
      cases hst with
      | working h => rw [h] at hph; cases hph
      | after h => rw [h] at hph; cases hph
      | before _ he =>
        rw [he, h1] at hbs
        cases hbs
        obtain ⟨ts, e1, I, J⟩ := Conc.start_inv hc hinv1 hsl1 hn1 hb1 (hr1.trans hr) trees W (hfit.mono hroom)
        have J' : Conc.Told ts := fun t ht hf => by rw [J t ht] at hf; cases hf
        refine ⟨_, .working (ts := ts) (pub := []) rfl (Annoy.Steps.refl _) e1 I J', ?_⟩
        refine hsi.move rfl rfl ⟨fun r hr' => Or.inr (I.roots_pub J' r hr'), (I.agree hc low hD' I.base.memOK I.base.nItems I.pub_size
          (fun _ _ _ _ => rfl) w)⟩ (fun _ h => h.elim) ?_ (fun _ h => h.elim) (fun _ h => h.elim)
        dsimp only
        rw [he, hr]
        exact List.nil_prefix
    | work hph hw =>
      rename_i z
      cases hst with
      | before h => rw [h] at hph; cases hph
      | after h => rw [h] at hph; cases hph
      | working _ hsteps e1 I J =>
        rename_i ts pub
        obtain ⟨ts', pub', e2, I', J', hP, hrt, hsame⟩ := I.told_step hc (x := ⟨x.idx, x.ths⟩) e1 J hw
        refine ⟨_, .working (ts := ts') (pub := pub') hph (hsteps.tail hw) e2 I' J', ?_⟩
        refine hsi.move rfl rfl ⟨fun r hr' => Or.inr (I'.roots_pub J' r hr'), (I'.agree hc low hD' I'.base.memOK I'.base.nItems I'.pub_size
          (fun _ _ _ _ => rfl) w)⟩ (fun i h => h.imp_right (hP i)) hrt ?_ (fun _ _ => I.base.nItems.trans I'.base.nItems.symm)
        exact (I.agree hc low hD' I'.base.memOK I'.base.nItems (fun i hi => I'.pub_size i (hi.imp_right (hP i))) hsame w).node
    | finish hph hf hbf =>
      rename_i s'
      cases hst with
      | before h => rw [h] at hph; cases hph
      | after h => rw [h] at hph; cases hph
      | working _ hsteps e1 I J =>
        rename_i ts pub _
        obtain ⟨G, g1, -⟩ := Conc.multi_grown hc hs hb hr trees W hfit h1 hsteps hf
        dsimp only at G g1
        obtain ⟨s6, F1, B, F3, -⟩ := Idx.buildFinish_spec hc G (hfit.mono g1)
        rw [hbf] at F1
        cases F1
        have hfr := Idx.buildFinish_frame hc I.base (fun r hr => (G.roots_lt r hr).2) (hfit.mono g1) hbf
        have hsame : ∀ i, i < (par c m n trees W).n ∨ Conc.Pub ts i → SameNode c.L x.idx.alloc.data s'.alloc.data i := fun i hi j hj =>
          (hfr _ (Idx.node_lt (I.pub_lt i hi) hj)).symm
        have hle : x.idx.nNodes ≤ s'.nodesSize := by
          have := B.le_size
          have := B.nNodes
          omega
        have hag := I.agree hc low hD' B.memOK B.nItems (fun i hi => lt_of_lt_of_le (I.pub_lt i hi) hle) hsame w
        refine ⟨_, .after (s0 := x.idx) (ts := ts) (pub := pub) rfl ⟨s1, _, h1, hsteps, hf, hbf⟩ I J B.memOK B.nItems hle F3 hsame, ?_⟩
        refine hsi.move rfl rfl ⟨fun r hr' => ?_, hag.self hc⟩ (fun _ h => h) ?_ hag.node (fun _ _ => I.base.nItems.trans B.nItems.symm)
        · dsimp only at hr'
          rw [F3] at hr'
          exact Or.inr (I.roots_pub J r hr')
        · dsimp only
          rw [F3]
    | search k =>
      refine ⟨Q, ?_, hsi.search_step hc hn k⟩
      cases hst with
      | before h1 h2 => exact .before h1 h2
      | working h1 h2 h3 h4 h5 => exact .working h1 h2 h3 h4 h5
      | after h1 h2 h3 h4 h5 h6 h7 h8 h9 => exact .after h1 h2 h3 h4 h5 h6 h7 h8 h9
end

/-! ### the property -/

/-- A new index, any legal `AddItem` calls, giving `s`, and `W` workers for `Build(trees, workers)`. -/
structure Ahead (c : Cfg) (numCPU : Nat) (adds : List (Nat × List c.N.V)) (trees workers : Int) (s : Idx c) (W : Nat) : Prop where
  wf : c.WF
  legal : LegalAdds c adds
  added : ∃ r hint, (Idx.new c r hint).addAll adds = .ok s
  fits : c.L.Fits (treeRoom numCPU .multi (slotCount adds) trees workers)
  count : numWorkers numCPU workers = some W

section
variable {numCPU : Nat} {adds : List (Nat × List c.N.V)} {trees workers : Int} {s : Idx c} {W : Nat} {w : World} {ctxs : Nat → Ctx c}
  {qs : List (Query c)}

/-- The index goes the way it goes without searches. -/
theorem Ahead.way (_ : Ahead c numCPU adds trees workers s W) {z : State c} (st : Steps w trees W (State.of s ctxs qs) z) :
    (z.phase = .before → z.idx = s) ∧
      (z.phase = .working → ∃ s1, s.buildStart = .ok s1 ∧ Annoy.Steps (startWorkers s1 trees W) ⟨z.idx, z.ths⟩) ∧
      (z.phase = .after → s.BuildsMulti trees W z.idx) := by
  induction st with
  | refl => exact ⟨fun _ => rfl, fun h => (by cases h), fun h => (by cases h)⟩
  | tail _ st ih =>
    rename_i x y _
    obtain ⟨i1, i2, i3⟩ := ih
    cases st with
    | start h1 h2 =>
      rw [i1 h1] at h2
      exact ⟨fun h => (by cases h), fun _ => ⟨_, h2, .refl _⟩, fun h => (by cases h)⟩
    | work h1 h2 =>
      obtain ⟨s1, e1, e2⟩ := i2 h1
      refine ⟨fun h => ?_, fun _ => ⟨s1, e1, e2.tail h2⟩, fun h => ?_⟩
      · dsimp only at h; rw [h1] at h; cases h
      · dsimp only at h; rw [h1] at h; cases h
    | finish h1 h2 h3 =>
      obtain ⟨s1, e1, e2⟩ := i2 h1
      exact ⟨fun h => (by cases h), fun h => (by cases h), fun _ => ⟨s1, _, e1, e2, h2, h3⟩⟩
    | search k => exact ⟨i1, i2, i3⟩

/-- **C120**, the index: whatever the searches do, the index at the end of `Build` is one that `Build` makes alone. -/
theorem C120_build (h : Ahead c numCPU adds trees workers s W) {z : State c} (st : Steps w trees W (State.of s ctxs qs) z) (hz : z.phase = .after) :
    Session c numCPU .multi adds trees workers s z.idx :=
  ⟨h.wf, h.legal, h.added, h.fits, .multi h.count ((h.way st).2.2 hz)⟩

theorem Ahead.steps (h : Ahead c numCPU adds trees workers s W) (hk : SplitsKept c numCPU .multi (slotCount adds) trees workers)
    (hn : (qs.map Query.ctx).Nodup) {x : State c} (st : Steps w trees W (State.of s ctxs qs) x) : ∃ Q, SInv w ctxs qs x Q := by
  obtain ⟨r, hint, ha⟩ := h.added
  obtain ⟨s1, h1, h2, h3, h4, h5, _⟩ := addAll_spec h.wf adds _ _ _ (Idx.ItemInv.new c h.wf.layout r hint) h.legal
  rw [ha] at h1
  cases h1
  have h2' : s.ItemInv (lastAdded adds) (slotCount adds) := by simpa using h2
  have hf := h.fits
  unfold SplitsKept at hk
  unfold treeRoom at hf hk
  rw [h.count] at hf hk
  obtain ⟨s2, hs2, -⟩ := Idx.buildStart_spec h.wf h2' h4
  obtain ⟨Q, -, hQ⟩ := ConcBuild.steps h.wf h2' h4 h3 hf hk.symm hs2 hn st
  exact ⟨Q, hQ⟩

/-- A search is where it is after some steps alone on the index as it is now, with the roots that were there when it began. -/
theorem Ahead.search (h : Ahead c numCPU adds trees workers s W) (hk : SplitsKept c numCPU .multi (slotCount adds) trees workers)
    (hn : (qs.map Query.ctx).Nodup) {x : State c} (st : Steps w trees W (State.of s ctxs qs) x) {n : Nat} {q : Query c} (hq : qs[n]? = some q)
    {u : ConcSave.Search c} (hu : x.searches[n]? = some u) {k : Call c} {task : Task c} (ht : u.at? = some (k, task)) :
    k.roots <+: x.idx.roots ∧ ∃ m, (task, x.ctxs q.ctx) = ((x.idx.withRoots k.roots).searchCall w q.vector q.numReturn q.numInspect).next^[m]
      (((x.idx.withRoots k.roots).searchCall w q.vector q.numReturn q.numInspect).start, ctxs q.ctx) := by
  obtain ⟨Q, hQ⟩ := h.steps hk hn st
  obtain ⟨u', a1, a2, a3, a4, a5, a6⟩ := hQ.search n q hq
  rw [hu] at a1
  cases a1
  rw [ht] at a6
  obtain ⟨b1, b2, b3, b4, m, P, b5, b6, b7, b8, b9⟩ := a6
  refine ⟨b4, m, ?_⟩
  have e : (x.idx.withRoots k.roots).searchCall w q.vector q.numReturn q.numInspect = { k with mem := x.idx.mem w, nItems := x.idx.nItems } := by
    rw [← b1, ← b2, ← b3]
    rfl
  rw [e, b9]
  exact (iterate_congr h.wf b7 b6 _ m).1.symm

/-- **C120**: an index is searched while `Build` runs with several workers, in any order of steps.  At every moment, a search that is done has returned
exactly what it returns alone on the index of that moment (in particular, after `Build`, on the finished index) if the trees that were there when it
began were all; these come first among the trees of the index. -/
theorem C120_answers (h : Ahead c numCPU adds trees workers s W) (hk : SplitsKept c numCPU .multi (slotCount adds) trees workers)
    (hx : ∀ i, (ctxs i).dist.length = (ctxs i).nns.length) (hn : (qs.map Query.ctx).Nodup) {x : State c}
    (st : Steps w trees W (State.of s ctxs qs) x) {n : Nat} {q : Query c} (hq : qs[n]? = some q) {u : ConcSave.Search c} (hu : x.searches[n]? = some u)
    {k : Call c} {ids : List Nat} {ds : List c.N.V} (ht : u.at? = some (k, .done ids ds)) :
    k.roots <+: x.idx.roots ∧ ∃ fuel, (x.idx.withRoots k.roots).answer w ctxs q fuel = .ok (ids, ds, x.ctxs q.ctx) := by
  obtain ⟨h1, m, h2⟩ := h.search hk hn st hq hu ht
  exact ⟨h1, ConcSave.alone_done h.wf (hx _) h2⟩

/-- **C120**, panics: a search that fails, fails alone too. -/
theorem C120_failures (h : Ahead c numCPU adds trees workers s W) (hk : SplitsKept c numCPU .multi (slotCount adds) trees workers)
    (hx : ∀ i, (ctxs i).dist.length = (ctxs i).nns.length) (hn : (qs.map Query.ctx).Nodup) {x : State c}
    (st : Steps w trees W (State.of s ctxs qs) x) {n : Nat} {q : Query c} (hq : qs[n]? = some q) {u : ConcSave.Search c} (hu : x.searches[n]? = some u)
    {k : Call c} {e : Err} (ht : u.at? = some (k, .failed e)) :
    k.roots <+: x.idx.roots ∧ ∃ fuel, (x.idx.withRoots k.roots).answer w ctxs q fuel = .error e := by
  obtain ⟨h1, m, h2⟩ := h.search hk hn st hq hu ht
  exact ⟨h1, ConcSave.alone_failed h.wf (hx _) h2⟩

/-- Fewer trees can be searched, too. -/
theorem _root_.Annoy.Searchable.take {mem : Block} {n : Nat} {roots roots' : List Nat} {m : Nat → Option (List c.N.V)} {ts : List Tree}
    (h : Searchable c mem n roots m ts) (hp : roots' <+: roots) : Searchable c mem n roots' m (ts.take roots'.length) := by
  have hsub : ∀ t ∈ ts.take roots'.length, t ∈ ts := fun t ht => List.mem_of_mem_take ht
  refine ⟨?_, fun t ht => h.walk t (hsub t ht), fun t ht => h.below t (hsub t ht), h.slots, h.bound, h.items, h.gaps⟩
  rw [List.map_take, h.roots]
  exact (List.prefix_iff_eq_take.1 hp).symm

/-- **C120**, exactness: `Build` is over.  A search that began when at least one worker had published trees, and was given a budget of at least (number of
trees it saw) · (items − 1) + 1, has returned the nearest of all items. -/
theorem C120_nearest (h : Ahead c numCPU adds trees workers s W) (hN : c.N.Lawful) (hk : SplitsKept c numCPU .multi (slotCount adds) trees workers)
    (hx : ∀ i, (ctxs i).dist.length = (ctxs i).nns.length) (hn : (qs.map Query.ctx).Nodup) {z : State c}
    (st : Steps w trees W (State.of s ctxs qs) z) (hz : z.phase = .after) {n : Nat} {q : Query c} (hq : qs[n]? = some q) (hg : GoodQuery c q.vector)
    {u : ConcSave.Search c} (hu : z.searches[n]? = some u) {k : Call c} {ids : List Nat} {ds : List c.N.V} (ht : u.at? = some (k, .done ids ds))
    (hr : k.roots ≠ []) (hb : ((k.roots.length * ((addedIds adds).length - 1) + 1 : Nat) : Int) ≤ q.numInspect) :
    TopK c.N c.D.normalizedDistance (itemDist c (lastAdded adds) q.vector) (addedIds adds) q.numReturn.toNat ids ds := by
  obtain ⟨h1, fuel, h2⟩ := C120_answers h hk hx hn st hq hu ht
  have S := C120_build h st hz
  obtain ⟨N0, B, -⟩ := S.built
  obtain ⟨ts, t1, t2, t3, -⟩ := S.searchable_complete hk w
  have hsub : ∀ t ∈ ts.take k.roots.length, t ∈ ts := fun t ht => List.mem_of_mem_take ht
  have hex := Search.exhaustive h.wf hN (t1.take h1) (fun t ht => t2 t (hsub t ht))
    (t3.imp (fun f t ht => by rw [B.nItems]; exact f t (hsub t ht)) fun f t ht => f t (hsub t ht)) hg hr (by rw [B.nItems]; exact hb) h2
  rw [B.nItems] at hex
  exact hex.1

/-- **C120**, no trees yet: a search that began before any worker had published trees has returned nothing. -/
theorem C120_none (h : Ahead c numCPU adds trees workers s W) (hN : c.N.Lawful) (hk : SplitsKept c numCPU .multi (slotCount adds) trees workers)
    (hx : ∀ i, (ctxs i).dist.length = (ctxs i).nns.length) (hn : (qs.map Query.ctx).Nodup) {z : State c}
    (st : Steps w trees W (State.of s ctxs qs) z) (hz : z.phase = .after) {n : Nat} {q : Query c} (hq : qs[n]? = some q) (hg : GoodQuery c q.vector)
    {u : ConcSave.Search c} (hu : z.searches[n]? = some u) {k : Call c} {ids : List Nat} {ds : List c.N.V} (ht : u.at? = some (k, .done ids ds))
    (hr : k.roots = []) : ids = [] ∧ ds = [] := by
  obtain ⟨h1, fuel, h2⟩ := C120_answers h hk hx hn st hq hu ht
  have S := C120_build h st hz
  obtain ⟨ts, t1, -⟩ := S.searchable w
  obtain ⟨done, rest, d1, -, -, d4⟩ := Search.answer h.wf hN (t1.take h1) hg h2
  rw [hr] at d1
  have hd : done = [] := by
    have := d1.length_eq
    simp only [List.length_nil, List.take_zero, List.flatMap_nil, List.length_append, Nat.add_eq_zero_iff] at this
    exact List.length_eq_zero_iff.1 this.1
  have e : itemsAmong (lastAdded adds) z.idx.nItems (done.flatMap Tree.items) = [] := by
    rw [hd]
    simp [itemsAmong]
  rw [e] at d4
  have h3 := d4.length
  have h4 := congrArg List.length d4.dists
  rw [List.length_map] at h4
  have h5 : ids = [] := List.length_eq_zero_iff.1 (by simpa using h3)
  rw [h5] at h4
  exact ⟨h5, List.length_eq_zero_iff.1 h4⟩

/-- What an index with these items in memory answers. -/
theorem item_answers (hc : c.WF) {x y : Idx c} {m : Nat → Option (List c.N.V)} {n : Nat} (hb : ∀ i v, m i = some v → i < n) (hx : x.MemOK) (hy : y.MemOK)
    (nx : n ≤ x.nodesSize) (ny : n ≤ y.nodesSize) (ix : ∀ i v, m i = some v → ItemAt c x.alloc.data (i * c.L.nodeSize) v)
    (iy : ∀ i v, m i = some v → ItemAt c y.alloc.data (i * c.L.nodeSize) v) (w : World) :
    (∀ i v, m i = some v → x.getItem w i = .ok v) ∧
      ∀ i j, (m i).isSome → (m j).isSome → ∃ d, x.getDistance w i j = .ok d ∧ y.getDistance w i j = .ok d := by
  have key : ∀ {z : Idx c}, z.MemOK → n ≤ z.nodesSize → ∀ i, i < n → z.mem w = z.alloc.block ∧ getNode c.L (z.mem w) i = .ok (i * c.L.nodeSize) := by
    intro z hz nz i hi
    have h1 : z.mem w = z.alloc.block ∧ z.bmem = z.alloc.block := by
      have := hz.nodes (by omega)
      simp [Idx.mem, Idx.bmem, this]
    refine ⟨h1.1, ?_⟩
    rw [h1.1, ← h1.2]
    exact (hz.getNode (by omega)).1
  refine ⟨fun i v hv => ?_, fun i j hi hj => ?_⟩
  · obtain ⟨k1, k2⟩ := key hx nx i (hb i v hv)
    simp only [Idx.getItem, k2, bind, Except.bind]
    rw [k1]
    exact congrArg _ (ix i v hv).vec
  · obtain ⟨v, hv⟩ := Option.isSome_iff_exists.1 hi
    obtain ⟨u, hu⟩ := Option.isSome_iff_exists.1 hj
    obtain ⟨a1, a2⟩ := key hx nx i (hb i v hv)
    obtain ⟨-, a3⟩ := key hx nx j (hb j u hu)
    obtain ⟨b1, b2⟩ := key hy ny i (hb i v hv)
    obtain ⟨-, b3⟩ := key hy ny j (hb j u hu)
    refine ⟨c.D.normalizedDistance (c.D.distance y.alloc.data (i * c.L.nodeSize) y.alloc.data (j * c.L.nodeSize)), ?_, ?_⟩
    · simp only [Idx.getDistance, a2, a3, bind, Except.bind]
      rw [a1]
      exact congrArg _ (congrArg _ (hc.distance _ _ _ _ _ _ _ _ ((ix i v hv).same (iy i v hv)) ((ix j u hu).same (iy j u hu))))
    · simp only [Idx.getDistance, b2, b3, bind, Except.bind]
      rw [b1]
      rfl

/-- **C120**, items: at every moment – before `Build`, while any number of workers are anywhere in their work, after `Build` – and whatever the searches
do, `GetItem` of every added item returns its vector, and `GetDistance` of every two what it returned before `Build`. -/
theorem C120_items (h : Ahead c numCPU adds trees workers s W) {x : State c} (st : Steps w trees W (State.of s ctxs qs) x) :
    x.idx.nItems = slotCount adds ∧ (∀ i v, lastAdded adds i = some v → x.idx.getItem w i = .ok v) ∧
      ∀ i j, (lastAdded adds i).isSome → (lastAdded adds j).isSome →
        ∃ d, x.idx.getDistance w i j = .ok d ∧ s.getDistance w i j = .ok d := by
  have hp := h.wf.layout.nodeSize_pos
  obtain ⟨r, hint, ha⟩ := h.added
  obtain ⟨s1, h1, h2, h3, h4, h5, _⟩ := addAll_spec h.wf adds _ _ _ (Idx.ItemInv.new c h.wf.layout r hint) h.legal
  rw [ha] at h1
  cases h1
  have h2' : s.ItemInv (lastAdded adds) (slotCount adds) := by simpa using h2
  have hf := h.fits
  unfold treeRoom at hf
  rw [h.count] at hf
  obtain ⟨w1, w2, w3⟩ := h.way st
  cases hph : x.phase with
  | before =>
    rw [w1 hph]
    exact ⟨h2'.nItems, item_answers h.wf h2'.bound h2'.memOK h2'.memOK h2'.n_le h2'.n_le h2'.items h2'.items w⟩
  | working =>
    obtain ⟨s2, e1, e2⟩ := w2 hph
    obtain ⟨s2', hstart, hinv, hsl, hn, hb, hr, _, hitems, -⟩ := Idx.buildStart_spec h.wf h2' h4
    rw [e1] at hstart
    cases hstart
    obtain ⟨ts, t1, I, -⟩ := Conc.start_inv h.wf hinv hsl hn hb (hr.trans h3) trees W (hf.mono (Conc.room_le _ _ trees W))
    obtain ⟨ts', pub', -, I', -⟩ := I.conf_steps h.wf t1 e2
    have hn : slotCount adds ≤ x.idx.nodesSize := I'.base.n_le.trans I'.base.le_size
    refine ⟨I'.base.nItems, item_answers h.wf h2'.bound I'.base.memOK h2'.memOK hn h2'.n_le (fun i v hv => ?_) h2'.items w⟩
    have hi := h2'.bound i v hv
    have hsame : ∀ j, j < c.L.nodeSize → x.idx.alloc.data (i * c.L.nodeSize + j) = s2.alloc.data (i * c.L.nodeSize + j) := fun j hj =>
      I'.items _ (Idx.node_lt hi hj)
    exact (hitems i v hv).congr h.wf.layout hsame
  | after =>
    have S := C120_build h st hph
    obtain ⟨N0, B, -⟩ := S.built
    exact ⟨B.nItems, item_answers h.wf h2'.bound B.memOK h2'.memOK (B.n_le_nNodes.trans B.le_size) h2'.n_le B.items h2'.items w⟩

theorem _root_.Annoy.Steps.append {x y z : Conf c} (h : Annoy.Steps x y) (h' : Annoy.Steps y z) : Annoy.Steps x z := by
  induction h' with
  | refl => exact h
  | tail _ st ih => exact ih.tail st

/-- The workers go on. -/
theorem Steps.work {x : State c} (hx : x.phase = .working) {y : Conf c} (st : Annoy.Steps ⟨x.idx, x.ths⟩ y) :
    Steps w trees W x { x with idx := y.idx, ths := y.ths } := by
  generalize hv : (⟨x.idx, x.ths⟩ : Conf c) = v at st
  induction st with
  | refl => subst hv; exact .refl
  | tail _ st ih => exact ih.tail (.work hx st)

/-- From every moment, `Build` can be brought to its end. -/
theorem Ahead.can_build (h : Ahead c numCPU adds trees workers s W) (ht : Conc.Total c) (hb : Conc.CanBalance c) {x : State c}
    (st : Steps w trees W (State.of s ctxs qs) x) : ∃ z, Steps w trees W x z ∧ z.phase = .after ∧ z.searches = x.searches := by
  obtain ⟨r, hint, ha⟩ := h.added
  obtain ⟨s1, h1, h2, h3, h4, h5, _⟩ := addAll_spec h.wf adds _ _ _ (Idx.ItemInv.new c h.wf.layout r hint) h.legal
  rw [ha] at h1
  cases h1
  have h2' : s.ItemInv (lastAdded adds) (slotCount adds) := by simpa using h2
  have hf := h.fits
  unfold treeRoom at hf
  rw [h.count] at hf
  obtain ⟨s2, hs2, -⟩ := Idx.buildStart_spec h.wf h2' h4
  have key : ∀ y : State c, Steps w trees W (State.of s ctxs qs) y → y.phase = .working →
      ∃ z, Steps w trees W y z ∧ z.phase = .after ∧ z.searches = y.searches := by
    intro y sy hy
    obtain ⟨s3, e1, e2⟩ := (h.way sy).2.1 hy
    have R : Running c adds trees W ⟨y.idx, y.ths⟩ := ⟨h.wf, h.legal, hf, r, hint, s, s3, ha, e1, e2⟩
    obtain ⟨v, hv, hfin⟩ := C62_can_finish R ht hb
    obtain ⟨G, g1, -⟩ := Conc.multi_grown h.wf h2' h4 h3 trees W hf e1 (e2.append hv) hfin
    obtain ⟨s6, F1, -⟩ := Idx.buildFinish_spec h.wf G (hf.mono g1)
    exact ⟨_, (Steps.work hy hv).tail (.finish hy hfin F1), rfl, rfl⟩
  cases hp : x.phase with
  | before =>
    have e := (h.way st).1 hp
    have st1 : Step w trees W x { x with idx := s2, phase := .working, ths := (startWorkers s2 trees W).ths } := .start hp (by rw [e]; exact hs2)
    obtain ⟨z, z1, z2⟩ := key _ (st.tail st1) rfl
    exact ⟨z, (Relation.ReflTransGen.single st1).trans z1, z2⟩
  | working => exact key x st hp
  | after => exact ⟨x, .refl, hp, rfl⟩

theorem Ahead.can_start (h : Ahead c numCPU adds trees workers s W) : ∃ s1, s.buildStart = .ok s1 := by
  obtain ⟨r, hint, ha⟩ := h.added
  obtain ⟨s1, h1, h2, h3, h4, h5, _⟩ := addAll_spec h.wf adds _ _ _ (Idx.ItemInv.new c h.wf.layout r hint) h.legal
  rw [ha] at h1
  cases h1
  have h2' : s.ItemInv (lastAdded adds) (slotCount adds) := by simpa using h2
  obtain ⟨s2, hs2, -⟩ := Idx.buildStart_spec h.wf h2' h4
  exact ⟨s2, hs2⟩

/-- The steps of one search, the others waiting. -/
theorem iterate_search {x : State c} {n : Nat} {u : ConcSave.Search c} {k : Call c} {task : Task c} (hu : x.searches[n]? = some u)
    (ht : u.at? = some (k, task)) (j : Nat) :
    ∃ ctxs', Steps w trees W x { x with
        ctxs := ctxs', searches := x.searches.set n { u with at? := some (k, ({ k with mem := x.idx.mem w, nItems := x.idx.nItems }.next^[j]
          (task, x.ctxs u.ctx)).1) } } ∧
      ctxs' u.ctx = ({ k with mem := x.idx.mem w, nItems := x.idx.nItems }.next^[j] (task, x.ctxs u.ctx)).2 := by
  have hlt := (List.getElem?_eq_some_iff.1 hu).1
  induction j with
  | zero =>
    refine ⟨x.ctxs, ?_, rfl⟩
    have e : x.searches.set n { u with at? := some (k, task) } = x.searches := by
      obtain ⟨l, e⟩ := List.getElem?_eq_some_iff.1 hu
      apply List.ext_getElem? 
      intro i
      rw [List.getElem?_set]
      split
      · rename_i hi
        subst hi
        rw [hu, ← ht]
      · rfl
    simp only [Function.iterate_zero, id_eq]
    rw [e]
    exact .refl
  | succ j ih =>
    obtain ⟨ctxs1, i1, i2⟩ := ih
    refine ⟨fun i => if i = u.ctx then ({ k with mem := x.idx.mem w, nItems := x.idx.nItems }.next^[j + 1] (task, x.ctxs u.ctx)).2 else ctxs1 i,
      i1.tail ?_, ?_⟩
    · have st := Step.search (w := w) (trees := trees) (workers := W) (x := { x with
        ctxs := ctxs1, searches := x.searches.set n { u with at? := some (k, ({ k with mem := x.idx.mem w, nItems := x.idx.nItems }.next^[j]
          (task, x.ctxs u.ctx)).1) } }) n
      unfold State.search ConcSave.State.search at st
      simp only [List.getElem?_set_self hlt, List.set_set] at st
      rw [i2] at st
      rw [Function.iterate_succ_apply']
      exact st
    · simp only [if_true]

/-- A search can be brought to its end. -/
theorem Ahead.can_search (h : Ahead c numCPU adds trees workers s W) (hN : c.N.Lawful) (hk : SplitsKept c numCPU .multi (slotCount adds) trees workers)
    (hx : ∀ i, (ctxs i).dist.length = (ctxs i).nns.length) (hn : (qs.map Query.ctx).Nodup) {z : State c}
    (st : Steps w trees W (State.of s ctxs qs) z) (hz : z.phase = .after) {n : Nat} {q : Query c} (hq : qs[n]? = some q) (hg : GoodQuery c q.vector) :
    ∃ y, Steps w trees W z y ∧ y.phase = .after ∧ y.idx = z.idx ∧ (∀ m, m ≠ n → y.searches[m]? = z.searches[m]?) ∧
      ∃ u k task, y.searches[n]? = some u ∧ u.at? = some (k, task) ∧ task.ended ∧
        (z.idx.roots.length * slotCount adds ≤ (ctxs q.ctx).nns.length → ∃ ids ds, task = .done ids ds) := by
  have begun : ∀ y : State c, Steps w trees W z y → y.phase = .after → y.idx = z.idx → (∀ m, m ≠ n → y.searches[m]? = z.searches[m]?) →
      ∀ u, y.searches[n]? = some u → u.ctx = q.ctx → ∀ k task, u.at? = some (k, task) →
      ∃ y, Steps w trees W z y ∧ y.phase = .after ∧ y.idx = z.idx ∧ (∀ m, m ≠ n → y.searches[m]? = z.searches[m]?) ∧
      ∃ u k task, y.searches[n]? = some u ∧ u.at? = some (k, task) ∧ task.ended ∧
        (z.idx.roots.length * slotCount adds ≤ (ctxs q.ctx).nns.length → ∃ ids ds, task = .done ids ds) := by
    intro y sy hy hi ho u hu hc k task ht
    have st' := st.trans sy
    obtain ⟨h1, m, h2⟩ := h.search hk hn st' hq hu ht
    obtain ⟨Q, hQ⟩ := h.steps hk hn st'
    obtain ⟨u', a1, a2, a3, a4, a5, a6⟩ := hQ.search n q hq
    rw [hu] at a1
    cases a1
    rw [ht] at a6
    obtain ⟨b1, b2, b3, b4, -⟩ := a6
    have e : (y.idx.withRoots k.roots).searchCall w q.vector q.numReturn q.numInspect = { k with mem := y.idx.mem w, nItems := y.idx.nItems } := by
      rw [← b1, ← b2, ← b3]
      rfl
    have hlt := (List.getElem?_eq_some_iff.1 hu).1
    have S := C120_build h st' hy
    obtain ⟨N0, B, -⟩ := S.built
    obtain ⟨ts, t1, t2, t3, t4, t5⟩ := S.searchable_complete hk w
    have T := t1.take h1
    have hsub : ∀ t ∈ ts.take k.roots.length, t ∈ ts := fun t ht => List.mem_of_mem_take ht
    -- the steps it takes alone
    have fin : ∃ N, ∀ j, N ≤ j → ∃ task' x', ((y.idx.withRoots k.roots).searchCall w q.vector q.numReturn q.numInspect).next^[j]
        (((y.idx.withRoots k.roots).searchCall w q.vector q.numReturn q.numInspect).start, ctxs q.ctx) = (task', x') ∧ task'.ended ∧
        (y.idx.roots.length * slotCount adds ≤ (ctxs q.ctx).nns.length → ∃ ids ds, task' = .done ids ds) := by
      rcases Search.outcome h.wf hN T hg q.numReturn q.numInspect (Nat.lt_succ_self _) (ctxs q.ctx) with ⟨⟨ids, ds, x'⟩, hr⟩ | ⟨hl, msg, hr⟩
      · obtain ⟨N, hN'⟩ := ConcSave.alone_finishes (s := y.idx.withRoots k.roots) (w := w) (q := q) h.wf (hx _) hr
        exact ⟨N, fun j hj => ⟨_, _, hN' j hj, trivial, fun _ => ⟨_, _, rfl⟩⟩⟩
      · have hrr := run_reaches (k := (y.idx.withRoots k.roots).searchCall w q.vector q.numReturn q.numInspect) h.wf (Tree.sizes (ts.take k.roots.length)).succ
          (ctxs q.ctx) (hx _)
        change (match Search.run c _ (y.idx.mem w) y.idx.nItems k.roots q.vector q.numReturn q.numInspect (ctxs q.ctx) with
          | .ok (ids, ds, x') => _ | .error e => _) at hrr
        rw [hr] at hrr
        rcases hrr with ⟨x', N, hN'⟩ | ⟨hd, -⟩
        · refine ⟨N, fun j hj => ⟨.failed (.panic msg), x', ?_, trivial, fun hroom => ?_⟩⟩
          · obtain ⟨d, rfl⟩ := Nat.exists_eq_add_of_le hj
            rw [Nat.add_comm, Function.iterate_add_apply, hN', iterate_ended (by trivial)]
          · exfalso
            have hlen := Search.items_length_le (live := addedIds adds) (n := slotCount adds) (liveOf_length_le _ _)
              (fun t ht => by have := t5 t (hsub t ht); rwa [B.nItems] at this)
            have : (ts.take k.roots.length).length * slotCount adds ≤ y.idx.roots.length * slotCount adds := by
              refine Nat.mul_le_mul_right _ ?_
              rw [List.length_take]
              exact (Nat.min_le_left _ _).trans h1.length_le
            omega
        · cases hd
    obtain ⟨N, hN'⟩ := fin
    obtain ⟨task', x', f1, f2, f3⟩ := hN' (N + m) (by omega)
    obtain ⟨ctxs', i1, -⟩ := iterate_search (w := w) (trees := trees) (W := W) hu ht N
    rw [hc, h2, ← e, ← Function.iterate_add_apply, f1] at i1
    refine ⟨_, sy.trans i1, hy, hi, fun m' hm' => ?_, _, k, task', List.getElem?_set_self hlt, rfl, f2, by rw [← hi]; exact f3⟩
    dsimp only
    rw [List.getElem?_set_ne hm'.symm]
    exact ho m' hm'
  obtain ⟨Q, hQ⟩ := h.steps hk hn st
  obtain ⟨u, a1, a2, a3, a4, a5, a6⟩ := hQ.search n q hq
  cases hat : u.at? with
  | some p => exact begun z .refl hz rfl (fun _ _ => rfl) u a1 a5 p.1 p.2 hat
  | none =>
    have hlt := (List.getElem?_eq_some_iff.1 a1).1
    have st1 := Step.search (w := w) (trees := trees) (workers := W) (x := z) n
    unfold State.search ConcSave.State.search at st1
    simp only [a1, hat] at st1
    refine begun _ (.single st1) hz rfl (fun m hm => ?_) _ (List.getElem?_set_self hlt) a5 _ _ rfl
    dsimp only
    rw [List.getElem?_set_ne hm.symm]

/-- **C120**, completion: if the generator can balance sides, every execution, however far it got, can be completed: `Build` returns and every search ends,
with an answer if its context has room for the entries of all trees. -/
theorem C120_can_finish (h : Ahead c numCPU adds trees workers s W) (hN : c.N.Lawful) (hk : SplitsKept c numCPU .multi (slotCount adds) trees workers)
    (ht : Conc.Total c) (hb : Conc.CanBalance c) (hx : ∀ i, (ctxs i).dist.length = (ctxs i).nns.length) (hn : (qs.map Query.ctx).Nodup)
    (hg : ∀ q ∈ qs, GoodQuery c q.vector) {x : State c} (st : Steps w trees W (State.of s ctxs qs) x) :
    ∃ z, Steps w trees W x z ∧ z.phase = .after ∧ ∀ (n : Nat) (q : Query c), qs[n]? = some q → ∃ u k task, z.searches[n]? = some u ∧ u.at? = some (k, task) ∧ task.ended ∧
      (z.idx.roots.length * slotCount adds ≤ (ctxs q.ctx).nns.length → ∃ ids ds, task = .done ids ds) := by
  obtain ⟨z0, s0, p0, -⟩ := h.can_build ht hb st
  have key : ∀ N, N ≤ qs.length → ∃ z, Steps w trees W x z ∧ z.phase = .after ∧ ∀ (n : Nat) (q : Query c), n < N → qs[n]? = some q →
      ∃ u k task, z.searches[n]? = some u ∧ u.at? = some (k, task) ∧ task.ended ∧
      (z.idx.roots.length * slotCount adds ≤ (ctxs q.ctx).nns.length → ∃ ids ds, task = .done ids ds) := by
    intro N
    induction N with
    | zero => exact fun _ => ⟨z0, s0, p0, fun n q hn' => absurd hn' (Nat.not_lt_zero _)⟩
    | succ N ih =>
      intro hN'
      obtain ⟨z, z1, z2, z3⟩ := ih (by omega)
      obtain ⟨y, y1, y2, y3, y4, y5⟩ := h.can_search hN hk hx hn (st.trans z1) z2 (List.getElem?_eq_getElem hN') (hg _ (List.getElem_mem _))
      refine ⟨y, z1.trans y1, y2, fun n q hlt hq => ?_⟩
      rw [y3]
      rcases Nat.lt_or_ge n N with hlt' | hge
      · rw [y4 n (by omega)]
        exact z3 n q hlt' hq
      · obtain rfl : n = N := by omega
        rw [List.getElem?_eq_getElem hN'] at hq
        cases hq
        exact y5
  obtain ⟨z, z1, z2, z3⟩ := key _ (Nat.le_refl _)
  exact ⟨z, z1, z2, fun n q hq => z3 n q (List.getElem?_eq_some_iff.1 hq).1 hq⟩
end

/-- The same query three times, each with its own context. -/
def threeQueries : List (Query (oracle32 12)) := (List.range 3).map fun i => ⟨i, List.replicate 12 (x32 0x3f800000), 3, 100⟩

/-- Room for all entries of five trees. -/
def roomy (c : Cfg) (z : c.N.V) : Nat → Ctx c := fun _ => ⟨List.replicate 200 0, List.replicate 200 (z, 0)⟩

/-- The hypotheses hold for the repository's angular index: twenty items, five trees, three workers.  One search begins before `Build`, one while the
workers run, the third one after `Build`, when there are trees; all can be completed, and have answers. -/
example : ∃ (s : Idx (oracle32 12)) (x y z : State (oracle32 12)), Ahead (oracle32 12) 4 (longAdds 20) 5 3 s 3 ∧
    SplitsKept (oracle32 12) 4 .multi (slotCount (longAdds 20)) 5 3 ∧ Conc.Total (oracle32 12) ∧ Conc.CanBalance (oracle32 12) ∧
    (oracle32 12).N.Lawful ∧ (threeQueries.map Query.ctx).Nodup ∧ (∀ q ∈ threeQueries, GoodQuery (oracle32 12) q.vector) ∧
    Steps noFiles 5 3 (State.of s (roomy (oracle32 12) (x32 0)) threeQueries) x ∧ x.phase = .working ∧
    (∃ u, x.searches[0]? = some u ∧ u.at?.isSome) ∧ (∃ u, x.searches[1]? = some u ∧ u.at?.isSome) ∧
    Steps noFiles 5 3 x y ∧ y.phase = .after ∧ (∃ u k task, y.searches[2]? = some u ∧ u.at? = some (k, task) ∧ k.roots ≠ []) ∧
    Steps noFiles 5 3 y z ∧ z.phase = .after ∧ ∀ n < 3, ∃ u k ids ds, z.searches[n]? = some u ∧ u.at? = some (k, .done ids ds) := by
  have hwf := oracle32_wf (f := 12) (by decide)
  have hl : LegalAdds (oracle32 12) (longAdds 20) := legalAdds_of (by decide +kernel)
  obtain ⟨s, h1, -⟩ := addAll_spec hwf (longAdds 20) _ _ _ (Idx.ItemInv.new (oracle32 12) hwf.layout (fun _ => 0) 0) hl
  have hA : Ahead (oracle32 12) 4 (longAdds 20) 5 3 s 3 := ⟨hwf, hl, ⟨_, _, h1⟩, by decide +kernel, by decide⟩
  obtain ⟨s1, g1⟩ := hA.can_start
  have hK : SplitsKept (oracle32 12) 4 .multi (slotCount (longAdds 20)) 5 3 := splitsKept_of_length hwf (by decide) hA.fits
  have hT : Conc.Total (oracle32 12) := Conc.angular_total oracle_inRange (by decide)
  have hB : Conc.CanBalance (oracle32 12) := Conc.angular_canBalance (by decide)
  have hn : (threeQueries.map Query.ctx).Nodup := by decide
  have hg : ∀ q ∈ threeQueries, GoodQuery (oracle32 12) q.vector := by
    intro q hq
    obtain ⟨i, -, rfl⟩ := List.mem_map.1 hq
    exact ⟨rfl, angular_marginOk rfl (by decide)⟩
  have hx : ∀ i, (roomy (oracle32 12) (x32 0) i).dist.length = (roomy (oracle32 12) (x32 0) i).nns.length := fun _ =>
    List.length_replicate.trans List.length_replicate.symm
  -- the first search begins, then `Build`, then the second search
  have t1 := Step.search (w := noFiles) (trees := 5) (workers := 3) (x := State.of s (roomy (oracle32 12) (x32 0)) threeQueries) 0
  have t2 : Step noFiles 5 3 ((State.of s (roomy (oracle32 12) (x32 0)) threeQueries).search noFiles 0) _ := .start rfl g1
  have t3 := Step.search (w := noFiles) (trees := 5) (workers := 3) (x := { (State.of s (roomy (oracle32 12) (x32 0)) threeQueries).search noFiles 0 with
    idx := s1, phase := .working, ths := (startWorkers s1 5 3).ths }) 1
  have hxs := ((Relation.ReflTransGen.single t1).tail t2).tail t3
  obtain ⟨y0, y1, y2, y3⟩ := hA.can_build hT hB hxs
  have S := C120_build hA (hxs.trans y1) y2
  have hlen := (C10_tree_count S fun _ => by decide).1 (by decide)
  have hr : y0.idx.roots ≠ [] := by
    intro e
    rw [e] at hlen
    cases hlen
  have t4 := Step.search (w := noFiles) (trees := 5) (workers := 3) (x := y0) 2
  have e2 : y0.searches[2]? = some ⟨List.replicate 12 (x32 0x3f800000), 3, 100, 2, none⟩ := by rw [y3]; rfl
  have t5 : ∃ y, Step noFiles 5 3 y0 y ∧ y.phase = .after ∧ y.idx = y0.idx ∧ ∃ u k task, y.searches[2]? = some u ∧ u.at? = some (k, task) ∧ k.roots ≠ [] := by
    unfold State.search ConcSave.State.search at t4
    simp only [e2] at t4
    exact ⟨_, t4, y2, rfl, _, _, _, List.getElem?_set_self (List.getElem?_eq_some_iff.1 e2).1, rfl, hr⟩
  obtain ⟨y, t5, y4, y5, y6⟩ := t5
  have hys := (hxs.trans y1).tail t5
  obtain ⟨z, z1, z2, z3⟩ := C120_can_finish hA ieee32_lawful hK hT hB hx hn hg hys
  refine ⟨s, _, y, z, hA, hK, hT, hB, ieee32_lawful, hn, hg, hxs, rfl, ⟨_, rfl, rfl⟩, ⟨_, rfl, rfl⟩, y1.tail t5, y4, y6, z1, z2, fun n hlt => ?_⟩
  have hz := (C10_tree_count (C120_build hA (hys.trans z1) z2) fun _ => by decide).1 (by decide)
  obtain ⟨u, k, task, u1, u2, -, u3⟩ := z3 n ⟨n, List.replicate 12 (x32 0x3f800000), 3, 100⟩ (by
    unfold threeQueries
    rw [List.getElem?_map, List.getElem?_range hlt]
    rfl)
  obtain ⟨ids, ds, rfl⟩ := u3 (by
    rw [hz, show (roomy (oracle32 12) (x32 0) n).nns.length = 200 from List.length_replicate]
    decide +kernel)
  exact ⟨u, k, ids, ds, u1, u2⟩

end ConcBuild
end Annoy
