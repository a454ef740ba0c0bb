import Verif.Model.ConcAtomic
import Verif.Proof.Term
/-!
A single worker of the multi worker policy does what the single worker policy does.
-/
namespace Annoy

theorem writeBytes_again (b : Bytes) (a : Nat) (l : List Byte) : writeBytes (writeBytes b a l) a l = writeBytes b a l := by
  ext x
  rw [writeBytes_apply, writeBytes_apply]
  split <;> rfl

namespace Conc
variable {c : Cfg}

theorem ASteps.trans {x y z : Conf c} (h : ASteps x y) (h' : ASteps y z) : ASteps x z := by
  induction h' with
  | refl => exact h
  | tail _ st ih => exact .tail ih st

/-- The only worker gets from one place to another. -/
def Alone (s : Idx c) (h : Held) (p : Prog c) (s' : Idx c) (h' : Held) (p' : Prog c) : Prop :=
  ASteps ⟨s, [(h, p)]⟩ ⟨s', [(h', p')]⟩

variable {s s1 s' : Idx c} {h h1 h' : Held} {p p1 p' : Prog c}

theorem Alone.step (st : TStep [] s h p s1 h1 p1) (ha : Atomic s p s1 p1) (r : Alone s1 h1 p1 s' h' p') : Alone s h p s' h' p' :=
  ASteps.trans (.tail (.refl _) (AStep.mk [] [] st ha)) r

theorem Alone.read {β} {f : Block → c.R.σ → Except Err (β × c.R.σ)} {k : β → Prog c} {x : β} {r : c.R.σ} (hf : f s.bmem s.rng = .ok (x, r))
    (g : Alone { s with rng := r } h (k x) s' h' p') : Alone s h (.read f k) s' h' p' :=
  Alone.step (.read s.rng r hf) (.read hf) g

theorem Alone.takeNode {k : Nat → Prog c} (g : Alone s.takeNode.2 {} (k s.takeNode.1) s' h' p') : Alone s {} (Prog.takeNode k) s' h' p' := by
  unfold Prog.takeNode
  refine .step (.lockN (by simp) rfl) (.other rfl) (.step .readN (.other rfl) (.step .readSize (.other rfl) ?_))
  unfold Idx.takeNode Idx.allocateSize at g
  by_cases hz : c.L.wrap (s.nNodes + 1) > s.nodesSize
  · rw [if_pos hz]
    rw [if_pos hz] at g
    refine .step (.announce (by simp) rfl) (.other rfl) (.step (.wlock (by simp) rfl rfl) (.other rfl) (.step .readSize (.other rfl)
      (.step (.growBegin rfl) (.other rfl) (.step (.growEnd rfl) (.other rfl) (.step (.wunlock rfl) (.other rfl) ?_)))))
    exact .step .readN (.other rfl) (.step .readN (.other rfl) (.step .setN (.other rfl) (.step (.unlockN rfl) (.other rfl) g)))
  · rw [if_neg hz]
    rw [if_neg hz] at g
    exact .step .readN (.other rfl) (.step .readN (.other rfl) (.step .setN (.other rfl) (.step (.unlockN rfl) (.other rfl) g)))

theorem takeNode_nItems (s : Idx c) : s.takeNode.2.nItems = s.nItems := by
  unfold Idx.takeNode Idx.allocateSize
  dsimp only
  split <;> rfl

theorem write_bmem_size (s : Idx c) (g : Bytes → Bytes) : (s.write g).bmem.size = s.bmem.size := by
  unfold Idx.bmem Idx.write
  dsimp only
  split <;> rfl

theorem Alone.bucket {ids : List Nat} {isRoot : Bool} {i : Nat} {k : Nat → Prog c} (hb : s.makeBucket ids isRoot = .ok (i, s1))
    (g : Alone s1 {} (k i) s' h' p') : Alone s {} (Prog.bucket s.nItems ids isRoot k) s' h' p' ∧ s1.nItems = s.nItems := by
  unfold Idx.makeBucket at hb
  simp only [bind, Except.bind] at hb
  have hn := takeNode_nItems s
  cases ha : getNode c.L s.takeNode.2.bmem s.takeNode.1 with
  | error e => rw [ha] at hb; cases hb
  | ok a =>
    rw [ha] at hb
    dsimp only at hb
    injection hb with hb
    injection hb with e1 e2
    subst e1 e2
    rw [hn] at g
    refine ⟨?_, hn⟩
    unfold Prog.bucket
    refine .takeNode (.step (.rlock (by simp) rfl rfl) (.other rfl) (.step (.write ha) (.other rfl) ?_))
    by_cases hl : ids.length > 0
    · dsimp only
      rw [if_pos hl]
      simp only [if_pos hl] at g
      refine .step (.write (a := a) ?_) (.other rfl) (.step (.runlock rfl) (.other rfl) ?_)
      · unfold getNode at ha ⊢
        rw [write_bmem_size]
        exact ha
      · exact g
    · dsimp only
      rw [if_neg hl]
      simp only [if_neg hl] at g
      exact .step (.runlock rfl) (.other rfl) g

theorem Alone.place {m : Bytes} {i : Nat} {k : Nat → Prog c} (hb : s.placeSplit m = .ok (i, s1))
    (g : Alone s1 {} (k i) s' h' p') : Alone s {} (Prog.place m k) s' h' p' ∧ s1.nItems = s.nItems := by
  unfold Idx.placeSplit at hb
  simp only [bind, Except.bind] at hb
  have hn := takeNode_nItems s
  cases ha : getNode c.L s.takeNode.2.bmem s.takeNode.1 with
  | error e => rw [ha] at hb; cases hb
  | ok a =>
    rw [ha] at hb
    dsimp only at hb
    injection hb with hb
    injection hb with e1 e2
    subst e1 e2
    refine ⟨?_, hn⟩
    unfold Prog.place
    exact .takeNode (.step (.rlock (by simp) rfl rfl) (.other rfl) (.step (.write ha) (.other rfl) (.step (.runlock rfl) (.other rfl) g)))

theorem Alone.sides {m : Bytes} {ids l rt : List Nat} {r : c.R.σ} {k : List Nat → List Nat → Prog c}
    (hb : Idx.assignSides (Idx.sideOfItem c s.bmem m) ids s.rng = .ok (l, rt, r)) (g : Alone { s with rng := r } h (k l rt) s' h' p') :
    Alone s h (Prog.sides m ids k) s' h' p' := by
  induction ids generalizing s l rt r k with
  | nil =>
    unfold Idx.assignSides at hb
    injection hb with hb
    injection hb with e1 e2
    injection e2 with e2 e3
    subst e1 e2 e3
    exact g
  | cons j js ih =>
    unfold Idx.assignSides at hb
    simp only [bind, Except.bind] at hb
    cases hx : Idx.sideOfItem c s.bmem m j s.rng with
    | error e => rw [hx] at hb; cases hb
    | ok x =>
      obtain ⟨sd, r1⟩ := x
      rw [hx] at hb
      dsimp only at hb
      cases hy : Idx.assignSides (Idx.sideOfItem c s.bmem m) js r1 with
      | error e => rw [hy] at hb; cases hb
      | ok y =>
        obtain ⟨l1, rt1, r2⟩ := y
        rw [hy] at hb
        dsimp only at hb
        unfold Prog.sides
        refine .read hx (ih (s := { s with rng := r1 }) hy ?_)
        cases sd <;> (dsimp only at hb ⊢; injection hb with hb; injection hb with e1 e2; injection e2 with e2 e3; subst e1 e2 e3; exact g)

theorem Alone.attempts {addrs ids : List Nat} (j : Nat) {m m' : Bytes} {l rt l' rt' : List Nat} {r : c.R.σ} {k : Bytes → List Nat → List Nat → Prog c}
    (hb : Idx.trySplit c s.bmem addrs ids j m l rt s.rng = .ok (m', l', rt', r)) (g : Alone { s with rng := r } h (k m' l' rt') s' h' p') :
    Alone s h (Prog.attempts addrs ids j m l rt k) s' h' p' := by
  induction j generalizing s m l rt with
  | zero =>
    unfold Idx.trySplit at hb
    injection hb with hb
    injection hb with e1 e2
    injection e2 with e2 e3
    injection e3 with e3 e4
    subst e1 e2 e3 e4
    exact g
  | succ j ih =>
    unfold Idx.trySplit at hb
    simp only [bind, Except.bind] at hb
    cases hx : c.D.createSplit s.bmem.get addrs s.rng m with
    | error e => rw [hx] at hb; cases hb
    | ok x =>
      obtain ⟨m1, r1⟩ := x
      rw [hx] at hb
      dsimp only at hb
      cases hy : Idx.assignSides (Idx.sideOfItem c s.bmem m1) ids r1 with
      | error e => rw [hy] at hb; cases hb
      | ok y =>
        obtain ⟨l1, rt1, r2⟩ := y
        rw [hy] at hb
        dsimp only at hb
        unfold Prog.attempts
        refine .read hx (Alone.sides (s := { s with rng := r1 }) hy ?_)
        by_cases hl : c.lt95 l1.length rt1.length = true
        · rw [if_pos hl] at hb ⊢
          injection hb with hb
          injection hb with e1 e2
          injection e2 with e2 e3
          injection e3 with e3 e4
          subst e1 e2 e3 e4
          exact g
        · rw [if_neg hl] at hb ⊢
          exact ih (s := { s with rng := r2 }) hb g

/-- The loop that draws random sides. -/
theorem Alone.rand {ids : List Nat} (j : Nat) {m m' : Bytes} {l rt l' rt' : List Nat} {r : c.R.σ} {k : List Nat → List Nat → Prog c}
    (hn : c.le99 l.length rt.length = false) (hb : Idx.randomize c ids j m l rt s.rng = .ok (m', l', rt', r))
    (g : Alone { s with rng := r } h (k l' rt') s' h' p') :
    Alone s h (.rand ids k) s' h' p' ∧ m' = Node.setVec c.L c.C m 0 (List.replicate c.L.f c.N.zero) := by
  induction j generalizing s m l rt with
  | zero => cases hb
  | succ j ih =>
    unfold Idx.randomize at hb
    rw [if_neg (by rw [hn]; simp)] at hb
    simp only [bind, Except.bind] at hb
    cases hy : Idx.assignSides (fun _ r => .ok (c.R.nextSide r)) ids s.rng with
    | error e => rw [hy] at hb; cases hb
    | ok y =>
      obtain ⟨l1, rt1, r2⟩ := y
      rw [hy] at hb
      dsimp only at hb
      cases hl : c.le99 l1.length rt1.length with
      | true =>
        unfold Idx.randomize at hb
        cases j with
        | zero => cases hb
        | succ j =>
          dsimp only at hb
          rw [if_pos hl] at hb
          injection hb with hb
          injection hb with e1 e2
          injection e2 with e2 e3
          injection e3 with e3 e4
          subst e1 e2 e3 e4
          exact ⟨.step (.rand s.rng r2 hy hl) (.rand hy hl) g, rfl⟩
      | false =>
        obtain ⟨g1, g2⟩ := ih (s := { s with rng := r2 }) hl hb g
        refine ⟨.step (.spin s.rng r2 hy hl) (.spin hy hl) g1, ?_⟩
        rw [g2]
        exact writeBytes_again _ _ _

theorem Alone.choose {ids : List Nat} {rf : Nat} {m : Bytes} {l rt : List Nat} {k : Bytes → List Nat → List Nat → Prog c}
    (hb : Idx.chooseSplit rf s ids = .ok (m, l, rt, s1)) (g : Alone s1 {} (k m l rt) s' h' p') :
    Alone s {} (Prog.choose ids k) s' h' p' ∧ s1.nItems = s.nItems := by
  unfold Idx.chooseSplit at hb
  simp only [bind, Except.bind] at hb
  cases ha : ids.mapM (getNode c.L s.bmem) with
  | error e => rw [ha] at hb; cases hb
  | ok addrs =>
    rw [ha] at hb
    dsimp only at hb
    cases hx : Idx.trySplit c s.bmem addrs ids 3 zeros [] [] s.rng with
    | error e => rw [hx] at hb; cases hb
    | ok x =>
      obtain ⟨m1, l1, rt1, r1⟩ := x
      rw [hx] at hb
      dsimp only at hb
      cases hy : Idx.randomize c ids rf m1 l1 rt1 r1 with
      | error e => rw [hy] at hb; cases hb
      | ok y =>
        obtain ⟨m2, l2, rt2, r2⟩ := y
        rw [hy] at hb
        dsimp only at hb
        injection hb with hb
        injection hb with e1 e2
        injection e2 with e2 e3
        injection e3 with e3 e4
        subst e1 e2 e3 e4
        refine ⟨?_, rfl⟩
        unfold Prog.choose
        refine .step (.rlock (by simp) rfl rfl) (.other rfl) (.read (x := addrs) (r := s.rng) (by simp only [bind, Except.bind, ha])
          (Alone.attempts (s := { s with rng := s.rng }) 3 hx (.step (.runlock rfl) (.other rfl) ?_)))
        cases hl : c.le99 l1.length rt1.length with
        | true =>
          rw [if_pos rfl]
          cases rf with
          | zero => cases hy
          | succ rf =>
            unfold Idx.randomize at hy
            rw [if_pos hl] at hy
            injection hy with hb
            injection hb with e1 e2
            injection e2 with e2 e3
            injection e3 with e3 e4
            subst e1 e2 e3 e4
            exact g
        | false =>
          rw [if_neg (by simp)]
          have key : m2 = Node.setVec c.L c.C m1 0 (List.replicate c.L.f c.N.zero) :=
            (Alone.rand (s := { s with rng := r1 }) (h := {}) (s' := { s with rng := r2 }) (h' := {}) (p' := .done) (k := fun _ _ => .done) rf hl hy (.refl _)).2
          rw [key] at g
          exact (Alone.rand (s := { s with rng := r1 }) rf hl hy g).1

theorem Alone.makeTree {rf : Nat} (fuel : Nat) {ids : List Nat} {isRoot : Bool} {i : Nat} {k : Nat → Prog c}
    (hb : Idx.makeTree rf fuel s ids isRoot = .ok (i, s1)) :
    s1.nItems = s.nItems ∧ ∀ {s' : Idx c} {h' : Held} {p' : Prog c}, Alone s1 {} (k i) s' h' p' → Alone s {} (Prog.makeTree s.nItems fuel ids isRoot k) s' h' p' := by
  induction fuel generalizing s s1 ids isRoot i k with
  | zero => cases hb
  | succ fuel ih =>
    have hb0 := hb
    unfold Idx.makeTree at hb
    unfold Prog.makeTree
    split at hb
    · injection hb with hb
      injection hb with e1 e2
      subst e1 e2
      exact ⟨rfl, fun g => g⟩
    · split at hb
      · next hif =>
        simp only [if_pos hif]
        refine ⟨?_, fun g => (Alone.bucket hb g).1⟩
        exact (Alone.bucket (s' := s1) (h' := {}) (p' := .done) (k := fun _ => .done) hb (.refl _)).2
      · next hif =>
        simp only [if_neg hif]
        simp only [bind, Except.bind] at hb
        cases hx : Idx.chooseSplit rf s ids with
        | error e => rw [hx] at hb; cases hb
        | ok x =>
          obtain ⟨m, l, rt, s2⟩ := x
          rw [hx] at hb
          dsimp only at hb
          have n2 : s2.nItems = s.nItems :=
            (Alone.choose (s' := s2) (h' := {}) (p' := .done) (k := fun _ _ _ => .done) hx (.refl _)).2
          rw [n2] at hb
          split at hb
          · next hlr =>
            cases hy : Idx.makeTree rf fuel s2 rt false with
            | error e => rw [hy] at hb; cases hb
            | ok y =>
              obtain ⟨cr, s3⟩ := y
              rw [hy] at hb
              dsimp only at hb
              cases hz : Idx.makeTree rf fuel s3 l false with
              | error e => rw [hz] at hb; cases hb
              | ok z =>
                obtain ⟨cl, s4⟩ := z
                rw [hz] at hb
                dsimp only at hb
                have n3 := (ih (k := fun _ => .done) hy).1
                have n4 := (ih (k := fun _ => .done) hz).1
                have n5 := (Alone.place (s' := s1) (h' := {}) (p' := .done) (k := fun _ => .done) hb (.refl _)).2
                refine ⟨by rw [n5, n4, n3, n2], fun g => (Alone.choose hx ?_).1⟩
                rw [if_pos hlr, ← n2]
                apply (ih hy).2
                rw [← n3]
                apply (ih hz).2
                rw [n3, n2]
                exact (Alone.place hb g).1
          · next hlr =>
            cases hy : Idx.makeTree rf fuel s2 l false with
            | error e => rw [hy] at hb; cases hb
            | ok y =>
              obtain ⟨cr, s3⟩ := y
              rw [hy] at hb
              dsimp only at hb
              cases hz : Idx.makeTree rf fuel s3 rt false with
              | error e => rw [hz] at hb; cases hb
              | ok z =>
                obtain ⟨cl, s4⟩ := z
                rw [hz] at hb
                dsimp only at hb
                have n3 := (ih (k := fun _ => .done) hy).1
                have n4 := (ih (k := fun _ => .done) hz).1
                have n5 := (Alone.place (s' := s1) (h' := {}) (p' := .done) (k := fun _ => .done) hb (.refl _)).2
                refine ⟨by rw [n5, n4, n3, n2], fun g => (Alone.choose hx ?_).1⟩
                rw [if_neg hlr, ← n2]
                apply (ih hy).2
                rw [← n3]
                apply (ih hz).2
                rw [n3, n2]
                exact (Alone.place hb g).1

theorem Alone.scan (is : List Nat) {acc : List Nat} {ks : List (Nat × Nat)} {k : List Nat → Prog c}
    (hb : is.mapM (fun i => do let a ← getNode c.L s.bmem i; .ok (i, Node.nDesc c.L s.bmem.get a)) = .ok ks)
    (g : Alone s h (k (acc ++ (ks.filter fun p => decide (p.2 ≥ 1)).map Prod.fst)) s' h' p') : Alone s h (Prog.scan is acc k) s' h' p' := by
  induction is generalizing acc ks with
  | nil =>
    simp only [List.mapM_nil, pure, Except.pure] at hb
    injection hb with hb
    subst hb
    simpa [Prog.scan] using g
  | cons i is ih =>
    simp only [List.mapM_cons, bind, Except.bind] at hb
    cases ha : getNode c.L s.bmem i with
    | error e => rw [ha] at hb; cases hb
    | ok a =>
      rw [ha] at hb
      dsimp only at hb
      split at hb
      · cases hb
      · next v hv =>
        simp only [pure, Except.pure] at hb
        injection hb with hb
        subst hb
        unfold Prog.scan
        refine .read (x := Node.nDesc c.L s.bmem.get a) (r := s.rng) (by simp only [bind, Except.bind, ha]) (ih (ks := v) (by simpa [bind, Except.bind] using hv) ?_)
        by_cases hd : Node.nDesc c.L s.bmem.get a ≥ 1
        · simp only [if_pos hd]
          simpa [List.filter_cons, hd] using g
        · simp only [if_neg hd]
          simpa [List.filter_cons, hd] using g

theorem Alone.thread {rf : Nat} {trees : Int} (lf : Nat) {done rs : List Nat} (hb : Idx.threadLoop rf (s.nItems + 2) trees lf s done = .ok (rs, s1)) :
    Alone s {} (Prog.thread s.nItems trees lf done) { s1 with roots := s1.roots ++ rs } {} .done := by
  induction lf generalizing s done with
  | zero => cases hb
  | succ lf ih =>
    unfold Idx.threadLoop at hb
    unfold Prog.thread
    have stop : ∀ {s1 : Idx c} {rs : List Nat}, Alone s1 {} (.lockR <| .readRoots fun old => .setRoots (old ++ rs) <| .unlockR .done : Prog c)
        { s1 with roots := s1.roots ++ rs } {} .done := fun {s1 rs} =>
      .step (.lockR (by simp) rfl) (.other rfl) (.step .readRoots (.other rfl) (.step .setRoots (.other rfl) (.step (.unlockR rfl) (.other rfl) (.refl _))))
    have go : (do
        let ids ← Idx.liveItems c s.bmem s.nItems
        let (root, s2) ← Idx.makeTree rf (s.nItems + 2) s ids true
        Idx.threadLoop rf (s.nItems + 2) trees lf s2 (done ++ [root])) = .ok (rs, s1) →
        Alone s {} (.rlock <| Prog.scan (List.range s.nItems) [] fun ids => .runlock <|
          Prog.makeTree s.nItems (s.nItems + 2) ids true fun root => Prog.thread s.nItems trees lf (done ++ [root]) : Prog c)
          { s1 with roots := s1.roots ++ rs } {} .done := by
      intro hb
      simp only [bind, Except.bind] at hb
      cases hl : Idx.liveItems c s.bmem s.nItems with
      | error e => rw [hl] at hb; cases hb
      | ok ids =>
        rw [hl] at hb
        dsimp only at hb
        cases hy : Idx.makeTree rf (s.nItems + 2) s ids true with
        | error e => rw [hy] at hb; cases hb
        | ok y =>
          obtain ⟨root, s2⟩ := y
          rw [hy] at hb
          dsimp only at hb
          unfold Idx.liveItems at hl
          simp only [bind, Except.bind] at hl
          split at hl
          · cases hl
          · next ks hks =>
            injection hl with hl
            subst hl
            refine .step (.rlock (by simp) rfl rfl) (.other rfl) (Alone.scan _ (ks := ks) (by simpa [bind, Except.bind] using hks)
              (.step (.runlock rfl) (.other rfl) ?_))
            have n2 := (Alone.makeTree (k := fun _ => .done) (s.nItems + 2) hy).1
            refine (Alone.makeTree (s.nItems + 2) hy).2 ?_
            rw [← n2]
            rw [← n2] at hb
            exact ih hb
    by_cases ht : trees = -1
    · simp only [if_pos ht] at hb ⊢
      refine .step (.lockN (by simp) rfl) (.other rfl) (.step .readN (.other rfl) (.step (.unlockN rfl) (.other rfl) ?_))
      by_cases hv : s.nNodes ≥ c.L.wrap (2 * s.nItems)
      · rw [if_pos hv] at hb ⊢
        injection hb with hb
        injection hb with e1 e2
        subst e1 e2
        exact stop
      · rw [if_neg hv] at hb ⊢
        exact go hb
    · simp only [if_neg ht] at hb ⊢
      by_cases hv : (done.length : Int) ≥ trees
      · rw [if_pos hv] at hb ⊢
        injection hb with hb
        injection hb with e1 e2
        subst e1 e2
        exact stop
      · rw [if_neg hv] at hb ⊢
        exact go hb

theorem atomic_det {s s1 s2 : Idx c} {p p1 p2 : Prog c} (hd : p.draws = true) (h1 : Atomic s p s1 p1) (h2 : Atomic s p s2 p2) : s1 = s2 ∧ p1 = p2 := by
  cases h1 with
  | read e1 =>
    cases h2 with
    | read e2 => rw [e1] at e2; cases e2; exact ⟨rfl, rfl⟩
    | readErr e2 => rw [e1] at e2; cases e2
    | other e => cases e
  | readErr e1 =>
    cases h2 with
    | read e2 => rw [e1] at e2; cases e2
    | readErr e2 => rw [e1] at e2; cases e2; exact ⟨rfl, rfl⟩
    | other e => cases e
  | rand e1 f1 =>
    cases h2 with
    | rand e2 f2 => rw [e1] at e2; cases e2; exact ⟨rfl, rfl⟩
    | spin e2 f2 => rw [e1] at e2; cases e2; rw [f1] at f2; cases f2
    | other e => cases e
  | spin e1 f1 =>
    cases h2 with
    | rand e2 f2 => rw [e1] at e2; cases e2; rw [f1] at f2; cases f2
    | spin e2 f2 => rw [e1] at e2; cases e2; exact ⟨rfl, rfl⟩
    | other e => cases e
  | other e => rw [hd] at e; cases e

theorem tstep_held {o : List Held} {s s1 : Idx c} {h h1 : Held} {p p1 : Prog c} (hd : p.draws = true) (t : TStep o s h p s1 h1 p1) : h1 = h := by
  cases t <;> first | rfl | cases hd

theorem tstep_det {o : List Held} {s s1 s2 : Idx c} {h h1 h2 : Held} {p p1 p2 : Prog c} (hd : p.draws = false) (t1 : TStep o s h p s1 h1 p1)
    (t2 : TStep o s h p s2 h2 p2) : s1 = s2 ∧ h1 = h2 ∧ p1 = p2 := by
  cases t1 <;> first
    | cases hd; done
    | (cases t2 <;> first | exact ⟨rfl, rfl, rfl⟩ | simp_all)

/-- A worker on its own has no choice. -/
theorem alone_det {x y z : Conf c} (hx : x.ths.length = 1) (hy : AStep x y) (hz : AStep x z) : y = z := by
  obtain ⟨s, ths⟩ := x
  obtain ⟨⟨h, p⟩, rfl⟩ := List.length_eq_one_iff.1 hx
  have one : ∀ {y : Conf c}, AStep ⟨s, [(h, p)]⟩ y → ∃ s' h' p', y = ⟨s', [(h', p')]⟩ ∧ TStep [] s h p s' h' p' ∧ Atomic s p s' p' := by
    intro y hy
    generalize e : (⟨s, [(h, p)]⟩ : Conf c) = x0 at hy
    cases hy with
    | mk pre post st ha =>
      injection e with e1 e2
      obtain ⟨rfl, rfl⟩ : pre = [] ∧ post = [] := by
        have := congrArg List.length e2
        simp only [List.length_append, List.length_cons, List.length_nil] at this
        exact ⟨List.length_eq_zero_iff.1 (by omega), List.length_eq_zero_iff.1 (by omega)⟩
      simp only [List.nil_append, List.cons.injEq, Prod.mk.injEq, and_true] at e2
      obtain ⟨rfl, rfl⟩ := e2
      subst e1
      exact ⟨_, _, _, rfl, st, ha⟩
  obtain ⟨s1, h1, p1, rfl, a1, b1⟩ := one hy
  obtain ⟨s2, h2, p2, rfl, a2, b2⟩ := one hz
  have : s1 = s2 ∧ h1 = h2 ∧ p1 = p2 := by
    cases hd : p.draws with
    | true =>
      obtain ⟨e1, e2⟩ := atomic_det hd b1 b2
      exact ⟨e1, (tstep_held hd a1).trans (tstep_held hd a2).symm, e2⟩
    | false => exact tstep_det hd a1 a2
  obtain ⟨rfl, rfl, rfl⟩ := this
  rfl

end Conc
end Annoy
