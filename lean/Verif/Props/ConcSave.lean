import Verif.Proof.ConcSave
import Verif.Props.ConcSearch
import Verif.Props.SaveLoad
/-!
# C116: `Save` while the index is searched
-/
namespace Annoy
namespace ConcSave
open ConcSearch
variable {c : Cfg}

/-- An index, its files, and some queries, before anything happens. -/
def State.of (s : Idx c) (w : World) (ctxs : Nat → Ctx c) (qs : List (Query c)) : State c :=
  State.start s w ctxs (qs.map fun q => (q.vector, q.numReturn, q.numInspect, q.ctx))

/-- What is known of a `Save` that works: the file is created and written, and loading it gives an index whose memory agrees with the old one. -/
structure Works (bk : Backend) (path : String) (s : Idx c) (w w1 w2 : World) (inode : Nat) (t : Idx c) (P : Nat → Prop) : Prop where
  built : s.built = true
  create : w.create path = some (inode, w1)
  bytes : ∃ b, s.saveBytes w1 = .ok (some b) ∧ w2 = w1.write inode b
  load : s.load bk w2 path = .ok (.nil, t)
  mem : ∀ w', s.mem w' = s.mem w
  agree : Search.Agree c (s.mem w) (t.mem w2) s.nItems t.nItems P
  roots : ∀ r ∈ s.roots, P r

/-- `Save` after `p` of its steps. -/
def SaverAt (s : Idx c) (w w1 w2 : World) (inode : Nat) (t : Idx c) (x : State c) : Nat → Prop
  | 0 => x.idx = s ∧ x.w = w ∧ x.saver = .start
  | 1 => x.idx = s ∧ x.w = w1 ∧ x.saver = .opened inode
  | 2 => x.idx = s ∧ x.w = w2 ∧ x.saver = .written
  | 3 => x.w = w2 ∧ x.saver = .closed s
  | _ + 4 => x.idx = t ∧ x.w = w2 ∧ x.saver = .returned .nil

/-- A search after the steps of a schedule. -/
def SearchAt (s : Idx c) (w w2 : World) (t : Idx c) (P : Nat → Prop) (ctx0 ctx : Ctx c) (schedule : List (Option Nat)) (n : Nat) (q : Query c) :
    Option (Call c × Task c) → Prop
  | none => some n ∉ schedule ∧ ctx = ctx0
  | some (k, task) => ∃ pre post, schedule = pre ++ some n :: post ∧ some n ∉ pre ∧
      (task, ctx) = k.next^[post.count (some n)] (k.start, ctx0) ∧
      ((pre.count none < 4 ∧ k = s.searchCall w q.vector q.numReturn q.numInspect ∧ Inside P ctx task) ∨
        (4 ≤ pre.count none ∧ k = t.searchCall w2 q.vector q.numReturn q.numInspect))

/-- The state after the steps of a schedule. -/
structure Inv (s : Idx c) (w w1 w2 : World) (inode : Nat) (t : Idx c) (P : Nat → Prop) (ctxs : Nat → Ctx c) (qs : List (Query c))
    (schedule : List (Option Nat)) (x : State c) : Prop where
  saver : SaverAt s w w1 w2 inode t x (schedule.count none)
  len : x.searches.length = qs.length
  search : ∀ n q, qs[n]? = some q → ∃ u, x.searches[n]? = some u ∧ u.query = q.vector ∧ u.numReturn = q.numReturn ∧
    u.numInspect = q.numInspect ∧ u.ctx = q.ctx ∧ SearchAt s w w2 t P (ctxs q.ctx) (x.ctxs q.ctx) schedule n q u.at?

/-- No search takes a step between the `Close` and the end of the `Load`. -/
def Apart (schedule : List (Option Nat)) : Prop :=
  ∀ pre n post, schedule = pre ++ some n :: post → pre.count none ≠ 3

theorem Apart.left {l : List (Option Nat)} {a : Option Nat} (h : Apart (l ++ [a])) : Apart l := by
  intro pre n post e
  exact h pre n (post ++ [a]) (by rw [e]; simp)

section
variable {bk : Backend} {path : String} {s : Idx c} {w w1 w2 : World} {inode : Nat} {t : Idx c} {P : Nat → Prop} {ctxs : Nat → Ctx c}
  {qs : List (Query c)}

theorem Inv.start : Inv s w w1 w2 inode t P ctxs qs [] (State.of s w ctxs qs) := by
  refine ⟨⟨rfl, rfl, rfl⟩, by simp [State.of, State.start], fun n q hq => ?_⟩
  exact ⟨⟨q.vector, q.numReturn, q.numInspect, q.ctx, none⟩, by simp [State.of, State.start, hq], rfl, rfl, rfl, rfl, by simp, rfl⟩

/-- A step of another goroutine. -/
theorem SearchAt.other {ctx0 ctx : Ctx c} {schedule : List (Option Nat)} {n : Nat} {q : Query c} {a : Option (Call c × Task c)}
    (h : SearchAt s w w2 t P ctx0 ctx schedule n q a) {m : Option Nat} (hm : m ≠ some n) :
    SearchAt s w w2 t P ctx0 ctx (schedule ++ [m]) n q a := by
  cases a with
  | none => exact ⟨by simpa using ⟨h.1, fun e => hm e.symm⟩, h.2⟩
  | some p =>
    obtain ⟨k, task⟩ := p
    obtain ⟨pre, post, h1, h2, h3, h4⟩ := h
    refine ⟨pre, post ++ [m], by rw [h1]; simp, h2, ?_, h4⟩
    rw [List.count_append, List.count_singleton, if_neg (by simpa using hm)]
    exact h3

theorem Inv.save (hw : Works bk path s w w1 w2 inode t P) {schedule : List (Option Nat)} {x : State c}
    (h : Inv s w w1 w2 inode t P ctxs qs schedule x) : Inv s w w1 w2 inode t P ctxs qs (schedule ++ [none]) (x.save bk path) := by
  have key : SaverAt s w w1 w2 inode t (x.save bk path) (schedule.count none + 1) ∧ (x.save bk path).searches = x.searches ∧
      (x.save bk path).ctxs = x.ctxs := by
    have hs := h.saver
    generalize schedule.count none = p at hs
    obtain ⟨idx, w', saver, cx, ss⟩ := x
    match p, hs with
    | 0, ⟨e1, e2, e3⟩ =>
      dsimp only at e1 e2 e3
      subst e1 e2 e3
      simp only [State.save, hw.built, hw.create, Bool.true_eq_false, if_false]
      exact ⟨⟨rfl, rfl, rfl⟩, trivial, trivial⟩
    | 1, ⟨e1, e2, e3⟩ =>
      dsimp only at e1 e2 e3
      subst e1 e2 e3
      obtain ⟨b, hb, e⟩ := hw.bytes
      simp only [State.save, hb]
      exact ⟨⟨rfl, e.symm, rfl⟩, trivial, trivial⟩
    | 2, ⟨e1, e2, e3⟩ =>
      dsimp only at e1 e2 e3
      subst e1 e2 e3
      exact ⟨⟨rfl, rfl⟩, rfl, rfl⟩
    | 3, ⟨e2, e3⟩ =>
      dsimp only at e2 e3
      subst e2 e3
      simp only [State.save, hw.load]
      exact ⟨⟨rfl, rfl, rfl⟩, trivial, trivial⟩
    | _ + 4, ⟨e1, e2, e3⟩ =>
      dsimp only at e1 e2 e3
      subst e1 e2 e3
      exact ⟨⟨rfl, rfl, rfl⟩, rfl, rfl⟩
  obtain ⟨k1, k2, k3⟩ := key
  refine ⟨by simpa using k1, by rw [k2]; exact h.len, fun n q hq => ?_⟩
  obtain ⟨u, h1, h2, h3, h4, h5, h6⟩ := h.search n q hq
  refine ⟨u, by rw [k2]; exact h1, h2, h3, h4, h5, ?_⟩
  rw [k3]
  exact h6.other (by simp)

theorem SaverAt.early (hw : Works bk path s w w1 w2 inode t P) {x : State c} {p : Nat} (h : SaverAt s w w1 w2 inode t x p) (hp : p < 3) :
    x.idx = s ∧ x.idx.mem x.w = s.mem w := by
  match p, h, hp with
  | 0, h, _ => exact ⟨h.1, by rw [h.1]; exact hw.mem _⟩
  | 1, h, _ => exact ⟨h.1, by rw [h.1]; exact hw.mem _⟩
  | 2, h, _ => exact ⟨h.1, by rw [h.1]; exact hw.mem _⟩

theorem SaverAt.late {x : State c} {p : Nat} (h : SaverAt s w w1 w2 inode t x p) (hp : 4 ≤ p) : x.idx = t ∧ x.w = w2 ∧ x.saver = .returned .nil := by
  obtain ⟨p, rfl⟩ := Nat.exists_eq_add_of_le hp
  rw [Nat.add_comm] at h
  exact h

theorem SaverAt.same {x y : State c} {p : Nat} (h : SaverAt s w w1 w2 inode t x p) (h1 : y.idx = x.idx) (h2 : y.w = x.w) (h3 : y.saver = x.saver) :
    SaverAt s w w1 w2 inode t y p := by
  match p, h with
  | 0, h => exact ⟨h1.trans h.1, h2.trans h.2.1, h3.trans h.2.2⟩
  | 1, h => exact ⟨h1.trans h.1, h2.trans h.2.1, h3.trans h.2.2⟩
  | 2, h => exact ⟨h1.trans h.1, h2.trans h.2.1, h3.trans h.2.2⟩
  | 3, h => exact ⟨h2.trans h.1, h3.trans h.2⟩
  | _ + 4, h => exact ⟨h1.trans h.1, h2.trans h.2.1, h3.trans h.2.2⟩

/-- A step of a search, seen from the search. -/
theorem SearchAt.step (hc : c.WF) (hw : Works bk path s w w1 w2 inode t P) {x : State c} {schedule : List (Option Nat)}
    (hs : SaverAt s w w1 w2 inode t x (schedule.count none)) (h3 : schedule.count none ≠ 3) {ctx0 ctx : Ctx c} {n : Nat} {q : Query c}
    {a : Option (Call c × Task c)} (h : SearchAt s w w2 t P ctx0 ctx schedule n q a) :
    match a with
    | none =>
      let k := x.idx.searchCall x.w q.vector q.numReturn q.numInspect
      SearchAt s w w2 t P ctx0 ctx (schedule ++ [some n]) n q (some (k, k.start))
    | some (k, task) =>
      let r := { k with mem := x.idx.mem x.w, nItems := x.idx.nItems }.step task ctx
      SearchAt s w w2 t P ctx0 r.2 (schedule ++ [some n]) n q (some (k, r.1)) := by
  have hcase : schedule.count none < 3 ∨ 4 ≤ schedule.count none := by omega
  cases a with
  | none =>
    obtain ⟨h1, h2⟩ := h
    refine ⟨schedule, [], rfl, h1, by rw [h2]; rfl, ?_⟩
    rcases hcase with hp | hp
    · obtain ⟨e1, e2⟩ := hs.early hw hp
      refine Or.inl ⟨by omega, ?_, Inside.start fun r hr => ?_⟩
      · unfold Idx.searchCall
        rw [e2, e1]
      · apply hw.roots
        have : r ∈ x.idx.roots := hr
        rwa [e1] at this
    · obtain ⟨e1, e2, -⟩ := hs.late hp
      exact Or.inr ⟨hp, by rw [e1, e2]⟩
  | some p =>
    obtain ⟨k, task⟩ := p
    obtain ⟨pre, post, h1, h2, h4, h5⟩ := h
    have hcount : (post ++ [some n]).count (some n) = post.count (some n) + 1 := by simp
    rcases h5 with ⟨g1, g2, g3⟩ | ⟨g1, g2⟩
    · have hag : Search.Agree c k.mem (x.idx.mem x.w) k.nItems x.idx.nItems P := by
        rcases hcase with hp | hp
        · obtain ⟨e1, e2⟩ := hs.early hw hp
          rw [e2, e1, g2]
          refine ⟨fun i hi => ?_, fun _ _ _ _ _ => Iff.rfl, hw.agree.bucket, hw.agree.inner⟩
          obtain ⟨a, ha, -, -⟩ := hw.agree.node i hi
          exact ⟨a, ha, ha, fun _ _ => rfl⟩
        · obtain ⟨e1, e2, -⟩ := hs.late hp
          rw [e2, e1, g2]
          exact hw.agree
      obtain ⟨f1, f2⟩ := step_congr hc hag g3
      refine ⟨pre, post ++ [some n], by rw [h1]; simp, h2, ?_, Or.inl ⟨g1, g2, ?_⟩⟩
      · rw [hcount, Function.iterate_succ_apply', ← h4, f1]
        rfl
      · rw [f1]
        exact f2
    · have hp : 4 ≤ schedule.count none := by
        rw [h1, List.count_append]
        omega
      obtain ⟨e1, e2, -⟩ := hs.late hp
      refine ⟨pre, post ++ [some n], by rw [h1]; simp, h2, ?_, Or.inr ⟨g1, g2⟩⟩
      rw [hcount, Function.iterate_succ_apply', ← h4, e1, e2, g2]
      rfl

theorem Inv.search_step (hc : c.WF) (hw : Works bk path s w w1 w2 inode t P) (hn : (qs.map Query.ctx).Nodup) {schedule : List (Option Nat)}
    {x : State c} (h : Inv s w w1 w2 inode t P ctxs qs schedule x) {n : Nat} (h3 : schedule.count none ≠ 3) :
    Inv s w w1 w2 inode t P ctxs qs (schedule ++ [some n]) (x.search n) := by
  have hcnt : (schedule ++ [some n]).count none = schedule.count none := by
    rw [List.count_append, List.count_singleton, if_neg (by simp)]; rfl
  cases hu : x.searches[n]? with
  | none =>
    have e : x.search n = x := by unfold State.search; rw [hu]
    rw [e]
    refine ⟨by rw [hcnt]; exact h.saver, h.len, fun m q hq => ?_⟩
    obtain ⟨u, h1, h2, h3, h4, h5, h6⟩ := h.search m q hq
    refine ⟨u, h1, h2, h3, h4, h5, h6.other ?_⟩
    rintro e
    cases e
    rw [hu] at h1
    cases h1
  | some u =>
    have hlt := (List.getElem?_eq_some_iff.1 hu).1
    obtain ⟨q, hq⟩ : ∃ q, qs[n]? = some q := ⟨_, List.getElem?_eq_getElem (by rw [← h.len]; exact hlt)⟩
    obtain ⟨u', a1, a2, a3, a4, a5, a6⟩ := h.search n q hq
    rw [hu] at a1
    cases a1
    have hne : ∀ m q', m ≠ n → qs[m]? = some q' → q'.ctx ≠ u.ctx := by
      intro m q' hm hq' e
      rw [a5] at e
      apply hm
      obtain ⟨l1, e1⟩ := List.getElem?_eq_some_iff.1 hq'
      obtain ⟨l2, e2⟩ := List.getElem?_eq_some_iff.1 hq
      refine (hn.getElem_inj_iff (hi := by simpa using l1) (hj := by simpa using l2)).1 ?_
      simp only [List.getElem_map, e1, e2]
      exact e
    cases hat : u.at? with
    | none =>
      rw [hat] at a6
      have hst := a6.step hc hw h.saver h3
      have e : x.search n = { x with searches := x.searches.set n { u with
          at? := some (x.idx.searchCall x.w u.query u.numReturn u.numInspect, (x.idx.searchCall x.w u.query u.numReturn u.numInspect).start) } } := by
        unfold State.search
        rw [hu]
        dsimp only
        rw [hat]
      rw [e]
      refine ⟨by rw [hcnt]; exact h.saver.same rfl rfl rfl, by simpa using h.len, fun m q' hq' => ?_⟩
      by_cases hm : m = n
      · subst hm
        rw [hq] at hq'
        cases hq'
        refine ⟨_, List.getElem?_set_self hlt, a2, a3, a4, a5, ?_⟩
        dsimp only
        rw [a2, a3, a4]
        exact hst
      · obtain ⟨u', b1, b2, b3, b4, b5, b6⟩ := h.search m q' hq'
        refine ⟨u', by dsimp only; rw [List.getElem?_set_ne (fun e => hm e.symm)]; exact b1, b2, b3, b4, b5, b6.other (by simpa using fun e => hm e.symm)⟩
    | some p =>
      obtain ⟨k, task⟩ := p
      rw [hat] at a6
      have hst := a6.step hc hw h.saver h3
      have e : x.search n = { x with
          ctxs := fun i => if i = u.ctx then (Call.step { k with mem := x.idx.mem x.w, nItems := x.idx.nItems } task (x.ctxs u.ctx)).2 else x.ctxs i
          searches := x.searches.set n { u with
            at? := some (k, (Call.step { k with mem := x.idx.mem x.w, nItems := x.idx.nItems } task (x.ctxs u.ctx)).1) } } := by
        unfold State.search
        rw [hu]
        dsimp only
        rw [hat]
      rw [e]
      refine ⟨by rw [hcnt]; exact h.saver.same rfl rfl rfl, by simpa using h.len, fun m q' hq' => ?_⟩
      by_cases hm : m = n
      · subst hm
        rw [hq] at hq'
        cases hq'
        refine ⟨_, List.getElem?_set_self hlt, a2, a3, a4, a5, ?_⟩
        dsimp only
        rw [a5, if_pos rfl]
        exact hst
      · obtain ⟨u', b1, b2, b3, b4, b5, b6⟩ := h.search m q' hq'
        refine ⟨u', by dsimp only; rw [List.getElem?_set_ne (fun e => hm e.symm)]; exact b1, b2, b3, b4, b5, ?_⟩
        dsimp only
        rw [if_neg (hne m q' hm hq')]
        exact b6.other (by simpa using fun e => hm e.symm)

theorem Inv.run (hc : c.WF) (hw : Works bk path s w w1 w2 inode t P) (hn : (qs.map Query.ctx).Nodup) (schedule : List (Option Nat)) :
    Apart schedule → Inv s w w1 w2 inode t P ctxs qs schedule ((State.of s w ctxs qs).run bk path schedule) := by
  induction schedule using List.reverseRecOn with
  | nil => exact fun _ => Inv.start
  | append_singleton l a ih =>
    intro hap
    have hi := ih hap.left
    unfold State.run at hi ⊢
    rw [List.foldl_append]
    cases a with
    | none => exact hi.save hw
    | some n => exact hi.search_step hc hw hn (hap l n [] rfl)
end

/-! ### the index of a session -/

/-- The memory of a built index and of the index loaded from its file, up to the last node. -/
theorem agree_reloaded (hc : c.WF) {s : Idx c} {m : Nat → Option (List c.N.V)} {n N0 : Nat} {w' : World} {t : Idx c} (B : s.Built m n N0)
    (R : s.Reloaded n N0 w' t) (hk : c.L.CountKept n) (h0 : 0 < s.nNodes) (w : World) :
    Search.Agree c (s.mem w) (t.mem w') s.nItems t.nItems (fun x => x < s.nNodes) := by
  have hget : (s.mem w).get = s.alloc.data := by rw [(B.mem_eq w h0).1]; rfl
  have hget' : (t.mem w').get = s.alloc.data := by rw [R.mem]
  have hnode : ∀ x, x < s.nNodes → getNode c.L (s.mem w) x = .ok (x * c.L.nodeSize) := fun x hx => B.getNode w hx
  have hlow : ∀ x, x < n → ndAt c.L s.alloc.data x ≤ 1 := by
    intro x hx
    cases hm : m x with
    | none =>
      have : ndAt c.L s.alloc.data x = 0 := by
        refine readLE_zero _ _ _ fun j hj => ?_
        have h3 := hc.layout.three_le
        exact B.gaps x hx hm j (by omega) (Or.inl (by omega))
      omega
    | some u => exact (B.items x u hm).nDesc.le
  refine ⟨fun x hx => ⟨_, hnode x hx, R.getNode B hx, fun j _ => by rw [hget, hget']⟩, ?_, ?_, ?_⟩
  · intro x _ a _ _
    rw [B.nItems, R.nItems]
  · intro x hx a ha hK hno y hy
    rw [hnode x hx] at ha
    cases ha
    rw [hget] at hK hno hy
    by_cases hge : n ≤ x
    · have := (B.downward_all hc hk hge hx).1 hK y hy
      have := B.n_le_nNodes
      omega
    · have hl := hlow x (by omega)
      rw [B.nItems] at hno
      have h0 : ndAt c.L s.alloc.data x = 0 := by
        by_contra hne
        exact hno ⟨by show ndAt c.L s.alloc.data x = 1; omega, by omega⟩
      obtain ⟨k', hk', _⟩ := List.mem_map.1 hy
      have hk' := List.mem_range.1 hk'
      have h0 : Node.nDesc c.L s.alloc.data (x * c.L.nodeSize) = 0 := h0
      omega
  · intro x hx a ha hK
    rw [hnode x hx] at ha
    cases ha
    rw [hget] at hK ⊢
    by_cases hge : n ≤ x
    · obtain ⟨d0, d1⟩ := (B.downward_all hc hk hge hx).2.1 hK
      exact ⟨lt_trans d0 hx, lt_trans d1 hx⟩
    · have hl := hlow x (by omega)
      have := hc.layout.K_ge
      have hK : c.L.K < ndAt c.L s.alloc.data x := hK
      omega

section
variable {numCPU : Nat} {pol : BuildPolicy} {adds : List (Nat × List c.N.V)} {trees workers : Int} {s s' : Idx c}

/-- `Save` of the index of a session works. -/
theorem works (h : Session c numCPU pol adds trees workers s s') (hn : 2 ≤ slotCount adds) (hr : s'.roots ≠ [])
    (hk : c.L.CountKept (slotCount adds)) (bk : Backend) (w : World) (path : String) (hcr : w.creatable path = true) :
    ∃ w1 w2 inode t, s'.save bk w path = .ok (.nil, t, w2) ∧ Works bk path s' w w1 w2 inode t (fun x => x < s'.nNodes) := by
  obtain ⟨N0, B, _⟩ := h.built
  obtain ⟨i, w1, c1, c2, c3⟩ := World.create_write hcr
  have hsb := B.saveBytes h.wf w1
  have hf : FileOf s' (w1.write i (s'.alloc.block.prefix (s'.nNodes * c.L.nodeSize))) path := h.fileOf.2 (c3 _)
  obtain ⟨t, l1, N1, B1, _, R1⟩ := h.reload hn hr hk hf bk s'
  have h0 : 0 < s'.nNodes := by have := B.n_le_nNodes; omega
  refine ⟨w1, w1.write i (s'.alloc.block.prefix (s'.nNodes * c.L.nodeSize)), i, t, ?_, B.built, c1, ⟨_, hsb, rfl⟩, l1, fun w' => ?_,
    agree_reloaded h.wf B1 R1 hk h0 w, fun r hr => ?_⟩
  · unfold Idx.save
    rw [if_neg (by rw [B.built]; decide), c1]
    simp only [hsb, l1, bind, Except.bind]
  · rw [(B.mem_eq w' h0).1, (B.mem_eq w h0).1]
  · have := (B.roots_lt r hr).2
    have := B.nNodes
    show r < s'.nNodes
    omega

/-- What a search that took `n` steps alone has returned. -/
theorem alone_done (hc : c.WF) {s : Idx c} {w : World} {q : Query c} {x0 x : Ctx c} (hx : x0.dist.length = x0.nns.length) {n : Nat} {ids : List Nat}
    {ds : List c.N.V}
    (h : (Task.done ids ds, x) = (s.searchCall w q.vector q.numReturn q.numInspect).next^[n] ((s.searchCall w q.vector q.numReturn q.numInspect).start, x0)) :
    ∃ fuel, s.getNnsByVector fuel w q.vector q.numReturn q.numInspect x0 = .ok (ids, ds, x) := by
  have h' := run_reaches (k := s.searchCall w q.vector q.numReturn q.numInspect) hc n x0 hx
  refine ⟨n, ?_⟩
  unfold Idx.getNnsByVector
  change (match Search.run c n (s.mem w) s.nItems s.roots q.vector q.numReturn q.numInspect x0 with
    | .ok (ids, ds, x') => _ | .error e => _) at h'
  cases hr : Search.run c n (s.mem w) s.nItems s.roots q.vector q.numReturn q.numInspect x0 with
  | ok p =>
    obtain ⟨ids', ds', x'⟩ := p
    rw [hr] at h'
    have := Reaches.unique h' ⟨_, h.symm⟩ trivial trivial
    cases this
    rfl
  | error e =>
    rw [hr] at h'
    rcases h' with ⟨x', h'⟩ | ⟨_, q', cnt, x', h'⟩
    · have := Reaches.unique h' ⟨_, h.symm⟩ trivial trivial
      cases this
    · rw [h'] at h
      cases h

/-- What a search that took `n` steps alone has failed with. -/
theorem alone_failed (hc : c.WF) {s : Idx c} {w : World} {q : Query c} {x0 x : Ctx c} (hx : x0.dist.length = x0.nns.length) {n : Nat} {e : Err}
    (h : (Task.failed e, x) = (s.searchCall w q.vector q.numReturn q.numInspect).next^[n] ((s.searchCall w q.vector q.numReturn q.numInspect).start, x0)) :
    ∃ fuel, s.getNnsByVector fuel w q.vector q.numReturn q.numInspect x0 = .error e := by
  have h' := run_reaches (k := s.searchCall w q.vector q.numReturn q.numInspect) hc n x0 hx
  refine ⟨n, ?_⟩
  unfold Idx.getNnsByVector
  change (match Search.run c n (s.mem w) s.nItems s.roots q.vector q.numReturn q.numInspect x0 with
    | .ok (ids, ds, x') => _ | .error e => _) at h'
  cases hr : Search.run c n (s.mem w) s.nItems s.roots q.vector q.numReturn q.numInspect x0 with
  | ok p =>
    obtain ⟨ids', ds', x'⟩ := p
    rw [hr] at h'
    have := Reaches.unique h' ⟨_, h.symm⟩ trivial trivial
    cases this
  | error e' =>
    rw [hr] at h'
    rcases h' with ⟨x', h'⟩ | ⟨_, q', cnt, x', h'⟩
    · have := Reaches.unique h' ⟨_, h.symm⟩ trivial trivial
      cases this
      rfl
    · rw [h'] at h
      cases h

/-- A search that returns something alone has returned it after enough steps. -/
theorem alone_finishes (hc : c.WF) {s : Idx c} {w : World} {q : Query c} {x0 x : Ctx c} (hx : x0.dist.length = x0.nns.length) {fuel : Nat} {ids : List Nat}
    {ds : List c.N.V} (h : s.getNnsByVector fuel w q.vector q.numReturn q.numInspect x0 = .ok (ids, ds, x)) :
    ∃ N, ∀ n, N ≤ n → (s.searchCall w q.vector q.numReturn q.numInspect).next^[n] ((s.searchCall w q.vector q.numReturn q.numInspect).start, x0) =
      (.done ids ds, x) := by
  have hr := run_reaches (k := s.searchCall w q.vector q.numReturn q.numInspect) hc fuel x0 hx
  unfold Idx.getNnsByVector at h
  change (match Search.run c fuel (s.mem w) s.nItems s.roots q.vector q.numReturn q.numInspect x0 with
    | .ok (ids, ds, x') => _ | .error e => _) at hr
  rw [h] at hr
  obtain ⟨N, hN⟩ := hr
  refine ⟨N, fun n hn => ?_⟩
  obtain ⟨d, rfl⟩ := Nat.exists_eq_add_of_le hn
  rw [Nat.add_comm, Function.iterate_add_apply, hN, iterate_ended (by trivial)]

/-- The index a search works on: the saved one if it began after `Save` returned. -/
def seen (s t : Idx c) (w w' : World) (pre : List (Option Nat)) : Idx c × World := if pre.count none < 4 then (s, w) else (t, w')

theorem split_unique {a : Option Nat} {pre pre' post post' : List (Option Nat)} (h : pre ++ a :: post = pre' ++ a :: post') (h1 : a ∉ pre) (h2 : a ∉ pre') :
    pre = pre' ∧ post = post' := by
  induction pre generalizing pre' with
  | nil =>
    cases pre' with
    | nil => simpa using h
    | cons b l =>
      simp only [List.nil_append, List.cons_append, List.cons.injEq] at h
      exact absurd (by rw [h.1]; simp) h2
  | cons b l ih =>
    cases pre' with
    | nil =>
      simp only [List.nil_append, List.cons_append, List.cons.injEq] at h
      exact absurd (by rw [h.1]; simp) h1
    | cons b' l' =>
      simp only [List.cons_append, List.cons.injEq] at h
      obtain ⟨e1, e2⟩ := ih h.2 (fun hm => h1 (List.mem_cons_of_mem _ hm)) (fun hm => h2 (List.mem_cons_of_mem _ hm))
      exact ⟨by rw [h.1, e1], e2⟩

/-- **C116**, what is left of it: a built index with at least two item slots and one tree is saved while it is searched, and no search takes a step between the
`Close` and the end of the `Load` in `Save`.  Then whatever the schedule, `Save` does what it does alone, and a search that has returned or failed has returned
or failed exactly as it does alone: on the built index if it took its first step before `Save` returned, on the index loaded from the file otherwise. -/
theorem C116_apart_partial (h : Session c numCPU pol adds trees workers s s') (hn : 2 ≤ slotCount adds) (hr : s'.roots ≠ [])
    (hk : c.L.CountKept (slotCount adds)) (bk : Backend) (w : World) (path : String) (hcr : w.creatable path = true) :
    ∃ t w', s'.save bk w path = .ok (.nil, t, w') ∧
    ∀ (ctxs : Nat → Ctx c) (qs : List (Query c)), (∀ i, (ctxs i).dist.length = (ctxs i).nns.length) → (qs.map Query.ctx).Nodup →
    ∀ schedule, Apart schedule →
      (4 ≤ schedule.count none → ((State.of s' w ctxs qs).run bk path schedule).idx = t ∧ ((State.of s' w ctxs qs).run bk path schedule).w = w' ∧
        ((State.of s' w ctxs qs).run bk path schedule).saver = .returned .nil) ∧
      ∀ n q, qs[n]? = some q → ∀ pre post, schedule = pre ++ some n :: post → some n ∉ pre →
        ∃ u k task, ((State.of s' w ctxs qs).run bk path schedule).searches[n]? = some u ∧ u.at? = some (k, task) ∧
          (∀ ids ds, task = .done ids ds → ∃ fuel, (seen s' t w w' pre).1.answer (seen s' t w w' pre).2 ctxs q fuel =
            .ok (ids, ds, ((State.of s' w ctxs qs).run bk path schedule).ctxs q.ctx)) ∧
          (∀ e, task = .failed e → ∃ fuel, (seen s' t w w' pre).1.answer (seen s' t w w' pre).2 ctxs q fuel = .error e) := by
  obtain ⟨w1, w2, inode, t, hsave, hw⟩ := works h hn hr hk bk w path hcr
  refine ⟨t, w2, hsave, fun ctxs qs hx hnd schedule hap => ?_⟩
  have hi := Inv.run (ctxs := ctxs) h.wf hw hnd schedule hap
  refine ⟨fun h4 => hi.saver.late h4, fun n q hq pre post hs hpre => ?_⟩
  obtain ⟨u, h1, -, -, -, -, h2⟩ := hi.search n q hq
  cases hat : u.at? with
  | none =>
    rw [hat] at h2
    exact absurd (by rw [hs]; simp) h2.1
  | some p =>
    obtain ⟨k, task⟩ := p
    rw [hat] at h2
    obtain ⟨pre', post', e1, e2, e3, e4⟩ := h2
    rw [hs] at e1
    obtain ⟨rfl, rfl⟩ := split_unique e1 hpre e2
    have hk' : k = (seen s' t w w2 pre).1.searchCall (seen s' t w w2 pre).2 q.vector q.numReturn q.numInspect := by
      unfold seen
      rcases e4 with ⟨a1, a2, -⟩ | ⟨a1, a2⟩
      · rw [if_pos a1]; exact a2
      · rw [if_neg (by omega)]; exact a2
    refine ⟨u, k, task, h1, hat, fun ids ds e => ?_, fun e he => ?_⟩
    · rw [e, hk'] at e3
      exact alone_done h.wf (hx _) e3
    · rw [he, hk'] at e3
      exact alone_failed h.wf (hx _) e3

/-- **C116**, completion: under the same conditions, a search that returns something alone returns the same as soon as it was given enough steps. -/
theorem C116_finishes_partial (h : Session c numCPU pol adds trees workers s s') (hn : 2 ≤ slotCount adds) (hr : s'.roots ≠ [])
    (hk : c.L.CountKept (slotCount adds)) (bk : Backend) (w : World) (path : String) {t : Idx c} {w' : World}
    (hs : s'.save bk w path = .ok (.nil, t, w')) {ctxs : Nat → Ctx c} (hx : ∀ i, (ctxs i).dist.length = (ctxs i).nns.length) {qs : List (Query c)}
    (hnd : (qs.map Query.ctx).Nodup) {n : Nat} {q : Query c} (hq : qs[n]? = some q) {fuel fuel' : Nat} {a a' : List Nat × List c.N.V × Ctx c}
    (h1 : s'.answer w ctxs q fuel = .ok a) (h2 : t.answer w' ctxs q fuel' = .ok a') :
    ∃ N, ∀ schedule, Apart schedule → N ≤ schedule.count (some n) →
      ∃ u k ids ds, ((State.of s' w ctxs qs).run bk path schedule).searches[n]? = some u ∧ u.at? = some (k, .done ids ds) ∧
        ((ids, ds, ((State.of s' w ctxs qs).run bk path schedule).ctxs q.ctx) = a ∨
          (ids, ds, ((State.of s' w ctxs qs).run bk path schedule).ctxs q.ctx) = a') := by
  obtain ⟨ids, ds, x⟩ := a
  obtain ⟨ids', ds', x'⟩ := a'
  have hcr : w.creatable path = true := by
    by_contra hne
    unfold Idx.save at hs
    obtain ⟨N0, B, _⟩ := h.built
    rw [if_neg (by rw [B.built]; decide)] at hs
    have : w.create path = none := by
      unfold World.create
      rw [if_neg hne]
    rw [this] at hs
    cases hs
  obtain ⟨w1, w2, inode, t', hsave, hw⟩ := works h hn hr hk bk w path hcr
  rw [hs] at hsave
  cases hsave
  obtain ⟨N, hN⟩ := alone_finishes h.wf (hx _) h1
  obtain ⟨N', hN'⟩ := alone_finishes h.wf (hx _) h2
  refine ⟨N + N' + 1, fun schedule hap hc => ?_⟩
  have hi := Inv.run (ctxs := ctxs) h.wf hw hnd schedule hap
  obtain ⟨u, g1, -, -, -, -, g2⟩ := hi.search n q hq
  cases hat : u.at? with
  | none =>
    rw [hat] at g2
    exact absurd (List.count_pos_iff.1 (by omega)) g2.1
  | some p =>
    obtain ⟨k, task⟩ := p
    rw [hat] at g2
    obtain ⟨pre, post, e1, e2, e3, e4⟩ := g2
    have hcount : schedule.count (some n) = post.count (some n) + 1 := by
      rw [e1, List.count_append, List.count_eq_zero.2 e2, List.count_cons_self, Nat.zero_add]
    rcases e4 with ⟨-, e5, -⟩ | ⟨-, e5⟩
    · rw [e5, hN _ (by omega)] at e3
      have hx2 := congrArg Prod.snd e3
      have ht := congrArg Prod.fst e3
      dsimp only at hx2 ht
      subst ht
      exact ⟨u, k, ids, ds, g1, hat, Or.inl (by rw [hx2])⟩
    · rw [e5, hN' _ (by omega)] at e3
      have hx2 := congrArg Prod.snd e3
      have ht := congrArg Prod.fst e3
      dsimp only at hx2 ht
      subst ht
      exact ⟨u, k, ids', ds', g1, hat, Or.inr (by rw [hx2])⟩

end

/-! ### witnesses -/

/-- `Apart`, to compute. -/
def apartFrom (p : Nat) : List (Option Nat) → Bool
  | [] => true
  | none :: l => apartFrom (p + 1) l
  | some _ :: l => p != 3 && apartFrom p l

theorem apart_of {l : List (Option Nat)} (h : apartFrom 0 l = true) : Apart l := by
  have key : ∀ (l : List (Option Nat)) (p : Nat), apartFrom p l = true → ∀ pre n post, l = pre ++ some n :: post → p + pre.count none ≠ 3 := by
    intro l
    induction l with
    | nil => intro p _ pre n post e; simp at e
    | cons a l ih =>
      intro p hp pre n post e
      cases pre with
      | nil =>
        simp only [List.nil_append, List.cons.injEq] at e
        rw [e.1] at hp
        simp only [apartFrom, Bool.and_eq_true, bne_iff_ne] at hp
        simpa using hp.1
      | cons b pre =>
        simp only [List.cons_append, List.cons.injEq] at e
        obtain ⟨rfl, e⟩ := e
        cases a with
        | none =>
          have := ih (p + 1) hp pre n post e
          rw [List.count_cons_self]
          omega
        | some k =>
          simp only [apartFrom, Bool.and_eq_true] at hp
          rw [List.count_cons_of_ne (by simp)]
          exact ih p hp.2 pre n post e
  intro pre n post e
  simpa using key l 0 h pre n post e

/-- No files. -/
def noFiles : World := ⟨fun _ => none, fun _ => [], 0, fun _ => true⟩

/-- What became of search number `n`. -/
def outcome (x : State c) (n : Nat) : Option (Except Err (List Nat)) :=
  match x.searches[n]? with
  | some ⟨_, _, _, _, some (_, .done ids _)⟩ => some (.ok ids)
  | some ⟨_, _, _, _, some (_, .failed e)⟩ => some (.error e)
  | _ => none

theorem outcome_ok {x : State c} {n : Nat} {ids : List Nat} (h : outcome x n = some (.ok ids)) :
    ∃ u k ds, x.searches[n]? = some u ∧ u.at? = some (k, .done ids ds) := by
  unfold outcome at h
  split at h
  · next e => cases h; exact ⟨_, _, _, e, rfl⟩
  · cases h
  · cases h

theorem outcome_error {x : State c} {n : Nat} {e : Err} (h : outcome x n = some (.error e)) :
    ∃ u k, x.searches[n]? = some u ∧ u.at? = some (k, .failed e) := by
  unfold outcome at h
  split at h
  · cases h
  · next e => cases h; exact ⟨_, _, e, rfl⟩
  · cases h

/-- Whether search number `n` returned `ids`. -/
def returned (x : State c) (n : Nat) (ids : List Nat) : Bool :=
  match outcome x n with
  | some (.ok l) => decide (l = ids)
  | _ => false

/-- Whether search number `n` read outside the memory. -/
def outside (x : State c) (n : Nat) : Bool :=
  match outcome x n with
  | some (.error .oob) => true
  | _ => false

theorem returned_elim {x : State c} {n : Nat} {ids : List Nat} (h : returned x n ids = true) :
    ∃ u k ds, x.searches[n]? = some u ∧ u.at? = some (k, .done ids ds) := by
  unfold returned at h
  split at h
  · next l e =>
    rw [of_decide_eq_true h] at e
    exact outcome_ok e
  · cases h

theorem outside_elim {x : State c} {n : Nat} (h : outside x n = true) : ∃ u k, x.searches[n]? = some u ∧ u.at? = some (k, .failed .oob) := by
  unfold outside at h
  split at h
  · next e => exact outcome_error e
  · cases h

/-- The search takes its first step before `Save` and the second one after the `Close`. -/
def inBetween : List (Option Nat) := [some 0, none, none, none, some 0]

/-- The search takes all its steps after the `Close`. -/
def afterClose : List (Option Nat) := [none, none, none] ++ List.replicate 8 (some 0)

/-- Two searches take steps before, during and after `Save`, but not after the `Close`. -/
def around : List (Option Nat) :=
  [some 0, none, some 0, none, some 0, none, none] ++ List.replicate 20 (some 1) ++ List.replicate 20 (some 0)

/-- The index of the witnesses: two items. -/
theorem saved_case : ∃ s s', Session (angular32 4 2) 1 .single denseAdds 1 1 s s' ∧ 2 ≤ slotCount denseAdds ∧ s'.roots ≠ [] ∧
    (angular32 4 2).L.CountKept (slotCount denseAdds) ∧
    outside ((State.of s' noFiles (fun _ => s'.createContext) (twoQueries 0 1)).run .mmap "f" inBetween) 0 = true ∧
    returned ((State.of s' noFiles (fun _ => s'.createContext) (twoQueries 0 1)).run .mmap "f" afterClose) 0 [] = true ∧
    returned ((State.of s' noFiles (fun _ => s'.createContext) (twoQueries 0 1)).run .mmap "f" around) 0 [0] = true ∧
    returned ((State.of s' noFiles (fun _ => s'.createContext) (twoQueries 0 1)).run .mmap "f" around) 1 [0] = true ∧
    ∃ ds o, s'.getNnsByVector 100 noFiles [x32 0x3f800000, x32 0x3f000000] 1 (-1) s'.createContext = .ok ([0], ds, o) := by
  obtain ⟨s, s', h, hp⟩ := made_with (c := angular32 4 2) (r := Kiss32.new 0) (adds := denseAdds) (trees := 1)
    (fun s' => decide (s'.roots = [2] ∧
      outside ((State.of s' noFiles (fun _ => s'.createContext) (twoQueries 0 1)).run .mmap "f" inBetween) 0 = true ∧
      returned ((State.of s' noFiles (fun _ => s'.createContext) (twoQueries 0 1)).run .mmap "f" afterClose) 0 [] = true ∧
      returned ((State.of s' noFiles (fun _ => s'.createContext) (twoQueries 0 1)).run .mmap "f" around) 0 [0] = true ∧
      returned ((State.of s' noFiles (fun _ => s'.createContext) (twoQueries 0 1)).run .mmap "f" around) 1 [0] = true ∧
      answerIds (s'.getNnsByVector 100 noFiles [x32 0x3f800000, x32 0x3f000000] 1 (-1) s'.createContext) = some [0]))
    (angular32_wf (Or.inl rfl) (by decide)) (legalAdds_of (by decide +kernel)) (by decide +kernel) (by decide +kernel)
  obtain ⟨h1, h2, h3, h4, h5, h6⟩ := of_decide_eq_true hp
  obtain ⟨ds, o, e⟩ := answerIds_some h6
  exact ⟨s, s', h, by decide +kernel, by rw [h1]; simp, by unfold Layout.CountKept; decide +kernel, h2, h3, h4, h5, ds, o, e⟩

/-- **C116 as stated is false.**  Two items, one tree.  A search has read the roots; `Save` has written the file and closed the index; the search maps its
first node to the memory of an index that has none: a nil pointer is read.  Alone the search returns item 0. -/
theorem C116_refuted : ∃ s s', Session (angular32 4 2) 1 .single denseAdds 1 1 s s' ∧
    (∃ u k, ((State.of s' noFiles (fun _ => s'.createContext) (twoQueries 0 1)).run .mmap "f" inBetween).searches[0]? = some u ∧
      u.at? = some (k, .failed .oob)) ∧
    ∃ ds o, s'.getNnsByVector 100 noFiles [x32 0x3f800000, x32 0x3f000000] 1 (-1) s'.createContext = .ok ([0], ds, o) := by
  obtain ⟨s, s', h, -, -, -, h1, -, -, -, h2⟩ := saved_case
  exact ⟨s, s', h, outside_elim h1, h2⟩

/-- **C116 as stated is false**, without a panic: a search that begins between the `Close` and the end of the `Load` finds no roots and returns nothing. -/
theorem C116_empty_refuted : ∃ s s', Session (angular32 4 2) 1 .single denseAdds 1 1 s s' ∧
    (∃ u k ds, ((State.of s' noFiles (fun _ => s'.createContext) (twoQueries 0 1)).run .mmap "f" afterClose).searches[0]? = some u ∧
      u.at? = some (k, .done [] ds)) ∧
    ∃ ds o, s'.getNnsByVector 100 noFiles [x32 0x3f800000, x32 0x3f000000] 1 (-1) s'.createContext = .ok ([0], ds, o) := by
  obtain ⟨s, s', h, -, -, -, -, h1, -, -, h2⟩ := saved_case
  exact ⟨s, s', h, returned_elim h1, h2⟩

/-- The hypotheses of `C116_apart_partial`: the same index, a schedule in which both searches are done, one of them begun before `Save`, the other one
after (on the loaded index, whose copy of the root is cut, item 0 is the answer to both). -/
example : ∃ s s', Session (angular32 4 2) 1 .single denseAdds 1 1 s s' ∧ 2 ≤ slotCount denseAdds ∧ s'.roots ≠ [] ∧
    (angular32 4 2).L.CountKept (slotCount denseAdds) ∧ noFiles.creatable "f" = true ∧
    s'.createContext.dist.length = s'.createContext.nns.length ∧ ((twoQueries 0 1).map Query.ctx).Nodup ∧ Apart around ∧
    (∃ u k ds, ((State.of s' noFiles (fun _ => s'.createContext) (twoQueries 0 1)).run .mmap "f" around).searches[0]? = some u ∧
      u.at? = some (k, .done [0] ds)) ∧
    ∃ u k ds, ((State.of s' noFiles (fun _ => s'.createContext) (twoQueries 0 1)).run .mmap "f" around).searches[1]? = some u ∧
      u.at? = some (k, .done [0] ds) := by
  obtain ⟨s, s', h, h1, h2, h3, -, -, h4, h5, -⟩ := saved_case
  exact ⟨s, s', h, h1, h2, h3, rfl, by simp [Idx.createContext], by decide, apart_of (by decide), returned_elim h4, returned_elim h5⟩

end ConcSave
end Annoy
