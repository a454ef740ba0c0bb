import Verif.Proof.ConcRun
import Verif.Spec.Conc
/-!
Adjacent actions of two workers can be exchanged unless both are lock operations.
-/
namespace Annoy
namespace Conc
variable {c : Cfg}

/-- What an action does to the index. -/
inductive Eff (c : Cfg) where
  | keep
  | cnt (v : Nat)
  | mv (z : Nat)
  | rng (r : c.R.σ)
  | node (i : Nat) (g : Bytes → Nat → Bytes)
  | roots (rs : List Nat)

def Eff.app : Eff c → Idx c → Idx c
  | .keep, s => s
  | .cnt v, s => { s with nNodes := v }
  | .mv z, s =>
    { s with nodes := .build, alloc := s.alloc.reallocate (c.L.wrap (z * c.L.nodeSize)), nodesSize := z }
  | .rng r, s => { s with rng := r }
  | .node i g, s => s.write fun b => g b (c.L.addr i)
  | .roots rs, s => { s with roots := rs }

/-- The effects an action may have. -/
def Eff.Of : Eff c → Prog c → Prop
  | .keep, _ => True
  | .cnt _, p => ∃ v k, p = .setN v k
  | .mv _, p => ∃ z k, p = .grow z k
  | .rng _, p => (∃ β f k, p = .read (β := β) f k) ∨ ∃ ids k, p = .rand ids k
  | .node i g, p => ∃ k, p = .write i g k
  | .roots _, p => ∃ rs k, p = .setRoots rs k

/-- An action of `p` cannot tell the two states apart. -/
structure Sees (p : Prog c) (s s' : Idx c) : Prop where
  counts : Counts p → s.nNodes = s'.nNodes ∧ s.nodesSize = s'.nodesSize
  roots : Roots p → s.roots = s'.roots
  read : ∀ β f k, p = .read (β := β) f k → ∀ r, f s.bmem r = f s'.bmem r
  write : (writes p).isSome = true → s.bmem.size = s'.bmem.size

theorem Sees.symm {p : Prog c} {s s' : Idx c} (h : Sees p s s') : Sees p s' s :=
  ⟨fun q => ⟨(h.counts q).1.symm, (h.counts q).2.symm⟩, fun q => (h.roots q).symm,
    fun β f k q r => (h.read β f k q r).symm, fun q => (h.write q).symm⟩

/-- An action that is no lock operation: its effect, and that it can be repeated in any state that looks the same
to it, whatever locks the others hold. -/
theorem access {o : List Held} {s s' : Idx c} {h h' : Held} {p p' : Prog c} (st : TStep o s h p s' h' p')
    (hl : ¬ LockOp p) : ∃ e : Eff c, s' = e.app s ∧ e.Of p ∧
      (h'.nn = h.nn ∧ h'.rd = h.rd ∧ h'.rt = h.rt ∧ h'.wr = h.wr) ∧
      (∀ o'' s'', Sees p s s'' → TStep o'' s'' h p (e.app s'') h' p') ∧
      (∀ r0, e = .rng r0 → ∀ r o'' s'', Sees p s s'' → TStep o'' s'' h p ((Eff.rng r).app s'') h' p') := by
  cases st
  case readN k =>
    refine ⟨.keep, rfl, trivial, by simp, fun o'' s'' q => ?_, by rintro _ ⟨⟩⟩
    rw [(q.counts trivial).1]; exact .readN
  case setN v => exact ⟨.cnt _, rfl, ⟨_, _, rfl⟩, by simp, fun o'' s'' q => .setN, by rintro _ ⟨⟩⟩
  case readSize k =>
    refine ⟨.keep, rfl, trivial, by simp, fun o'' s'' q => ?_, by rintro _ ⟨⟩⟩
    rw [(q.counts trivial).2]; exact .readSize
  case growBegin z hm => exact ⟨.keep, rfl, trivial, by simp, fun o'' s'' q => .growBegin hm, by rintro _ ⟨⟩⟩
  case growEnd z hm => exact ⟨.mv _, rfl, ⟨_, _, rfl⟩, by simp, fun o'' s'' q => .growEnd hm, by rintro _ ⟨⟩⟩
  case read β f k r r' x r'' hf =>
    have key : ∀ r1 o'' s'', Sees (.read f k) s s'' → TStep o'' s'' h (.read f k) ((Eff.rng r1).app s'') h (k x) :=
      fun r1 o'' s'' q => .read r r1 ((q.read β f k rfl r).symm.trans hf)
    exact ⟨.rng r', rfl, Or.inl ⟨_, _, _, rfl⟩, by simp, fun o'' s'' q => key r' o'' s'' q,
      fun _ _ r1 o'' s'' q => key r1 o'' s'' q⟩
  case readErr β f k r e hf =>
    exact ⟨.keep, rfl, trivial, by simp, fun o'' s'' q => .readErr r ((q.read β f k rfl r).symm.trans hf),
      by rintro _ ⟨⟩⟩
  case write i g a ha =>
    have e : a = c.L.addr i := by
      unfold getNode at ha
      split at ha <;> first | (cases ha; done) | (injection ha with ha; exact ha.symm)
    subst e
    refine ⟨.node i g, rfl, ⟨_, rfl⟩, by simp, fun o'' s'' q => .write ?_, by rintro _ ⟨⟩⟩
    have := q.write rfl
    unfold getNode at ha ⊢
    rw [← this]; exact ha
  case writeErr i g k e ha =>
    refine ⟨.keep, rfl, trivial, by simp, fun o'' s'' q => .writeErr ?_, by rintro _ ⟨⟩⟩
    have := q.write rfl
    unfold getNode at ha ⊢
    rw [← this]; exact ha
  case rand ids k r r' l rt r'' hf hb =>
    exact ⟨.rng r', rfl, Or.inr ⟨_, _, rfl⟩, by simp, fun o'' s'' q => .rand r r' hf hb,
      fun _ _ r1 o'' s'' q => .rand r r1 hf hb⟩
  case spin ids k r r' l rt r'' hf hb =>
    exact ⟨.rng r', rfl, Or.inr ⟨_, _, rfl⟩, by simp, fun o'' s'' q => .spin r r' hf hb,
      fun _ _ r1 o'' s'' q => .spin r r1 hf hb⟩
  case readRoots k =>
    refine ⟨.keep, rfl, trivial, by simp, fun o'' s'' q => ?_, by rintro _ ⟨⟩⟩
    rw [q.roots trivial]; exact .readRoots
  case setRoots rs => exact ⟨.roots _, rfl, ⟨_, _, rfl⟩, by simp, fun o'' s'' q => .setRoots, by rintro _ ⟨⟩⟩
  all_goals exact absurd trivial hl

/-- A lock operation: it changes the locks only, and looks at the locks of the others only. -/
theorem locking {o : List Held} {s s' : Idx c} {h h' : Held} {p p' : Prog c} (st : TStep o s h p s' h' p')
    (hl : LockOp p) : s' = s ∧ ∀ o'' s'',
      (∀ y ∈ o'', ∃ x ∈ o, y.nn = x.nn ∧ y.rd = x.rd ∧ y.rt = x.rt ∧ y.wr = x.wr) →
      TStep o'' s'' h p s'' h' p' := by
  cases st
  case lockN a b =>
    refine ⟨rfl, fun o'' s'' q => .lockN (fun y hy => ?_) b⟩
    obtain ⟨x, hx, e⟩ := q y hy; rw [e.1]; exact a x hx
  case unlockN a => exact ⟨rfl, fun o'' s'' q => .unlockN a⟩
  case rlock a b d =>
    refine ⟨rfl, fun o'' s'' q => .rlock (fun y hy => ?_) b d⟩
    obtain ⟨x, hx, e⟩ := q y hy; rw [e.2.2.2]; exact a x hx
  case runlock a => exact ⟨rfl, fun o'' s'' q => .runlock a⟩
  case announce a b =>
    refine ⟨rfl, fun o'' s'' q => .announce (fun y hy => ?_) b⟩
    obtain ⟨x, hx, e⟩ := q y hy; rw [e.2.2.2]; exact a x hx
  case wlock a b d =>
    refine ⟨rfl, fun o'' s'' q => .wlock (fun y hy => ?_) b d⟩
    obtain ⟨x, hx, e⟩ := q y hy; rw [e.2.1]; exact a x hx
  case wunlock a => exact ⟨rfl, fun o'' s'' q => .wunlock a⟩
  case lockR a b =>
    refine ⟨rfl, fun o'' s'' q => .lockR (fun y hy => ?_) b⟩
    obtain ⟨x, hx, e⟩ := q y hy; rw [e.2.2.1]; exact a x hx
  case unlockR a => exact ⟨rfl, fun o'' s'' q => .unlockR a⟩
  all_goals exact absurd hl id

theorem bmem_size_write (s : Idx c) (f : Bytes → Bytes) : (s.write f).bmem.size = s.bmem.size := by
  unfold Idx.bmem Idx.write
  dsimp only
  cases s.nodes <;> rfl

/-- Reads do not notice changes outside the item slots. -/
theorem Inv.read_eq {P : Par} {d0 : Bytes} {s : Idx c} {t : Th c} {rest : List (Th c)} {pub : List (List Nat)}
    (I : Inv P d0 s (t :: rest) pub) {β : Type} {f : Block → c.R.σ → Except Err (β × c.R.σ)} {k}
    (e : t.p = .read f k) (F : Bytes → Bytes)
    (hF : ∀ d x, x < P.n * c.L.nodeSize → F d x = d x) (r : c.R.σ) : f s.bmem r = f (s.write F).bmem r := by
  have S := (I.thr t (by simp)).safe
  rw [e, Safe] at S
  obtain ⟨_, S⟩ := S
  have hb : s.bmem.get = s.alloc.data ∧ s.bmem.size = s.alloc.size ∧ (s.write F).bmem.get = F s.alloc.data ∨
      P.n = 0 := by
    by_cases h0 : P.n = 0
    · exact Or.inr h0
    · left
      have := I.base.n_le
      have := I.base.le_size
      unfold Idx.bmem Idx.write
      dsimp only
      rw [I.base.memOK.nodes (by omega)]
      exact ⟨rfl, rfl, rfl⟩
  have hn1 : P.n * c.L.nodeSize ≤ s.nodesSize * c.L.nodeSize :=
    Nat.mul_le_mul_right _ (I.base.n_le.trans I.base.le_size)
  have hsz : P.n * c.L.nodeSize ≤ s.bmem.size := by
    rcases hb with q | q
    · rw [q.2.1]; exact hn1.trans I.base.memOK.size
    · rw [q]; simp
  have hrg := lt_of_le_of_lt hn1 I.base.memOK.fits
  rw [(S s.bmem r hsz hrg _).1, (S (s.write F).bmem r (by rw [bmem_size_write]; exact hsz) hrg _).1]
  · intro x hx
    rcases hb with q | q
    · rw [q.2.2, view_item hx, hF _ _ hx]
    · rw [q] at hx; simp at hx
  · intro x hx
    rcases hb with q | q
    · rw [q.1, view_item hx]
    · rw [q] at hx; simp at hx

/-- What two workers may do at the same time. -/
theorem Inv.apart {P : Par} {d0 : Bytes} {s : Idx c} {t u : Th c} {rest : List (Th c)} {pub : List (List Nat)}
    (I : Inv P d0 s (t :: u :: rest) pub) :
    ¬ (Counts t.p ∧ Counts u.p) ∧ ¬ (Roots t.p ∧ Roots u.p) ∧ ((∃ z k, t.p = .grow z k) → ¬ Touches u.p) := by
  have St := (I.thr t (by simp)).safe
  have Su := (I.thr u (by simp)).safe
  have hX : X t.h u.h := by
    have := I.excl
    rw [List.map_cons, List.pairwise_cons] at this
    exact this.1 _ (by simp)
  refine ⟨fun ⟨a, b⟩ => hX.1 ⟨St.counts a, Su.counts b⟩, fun ⟨a, b⟩ => hX.2.1 ⟨St.roots a, Su.roots b⟩, ?_⟩
  rintro ⟨z, k, e⟩ ht
  have h2 := Su.touches ht
  rw [e, Safe] at St
  have : t.h.wr = .held := by rcases St.1 with q | q <;> rw [q]
  exact hX.2.2.2.1 ⟨this, by rw [h2]⟩

theorem Inv.swap2 {P : Par} {d0 : Bytes} {s : Idx c} {t u : Th c} {rest : List (Th c)} {pub : List (List Nat)}
    (I : Inv P d0 s (t :: u :: rest) pub) : Inv P d0 s (u :: t :: rest) pub := I.perm (List.Perm.swap _ _ _)

/-- An own node lies beyond the items, and its address does not wrap around. -/
theorem Inv.node_addr {P : Par} {d0 : Bytes} {s : Idx c} {t : Th c} {rest : List (Th c)} {pub : List (List Nat)}
    (I : Inv P d0 s (t :: rest) pub) {i : Nat} (hi : i ∈ t.g.O) :
    c.L.addr i = i * c.L.nodeSize ∧ P.n ≤ i := by
  obtain ⟨hni, hiN⟩ := I.own_bounds (List.mem_cons_self) hi
  refine ⟨?_, hni⟩
  have hg := (I.base.memOK.getNode (i := i) (lt_of_lt_of_le hiN I.base.le_size)).1
  unfold getNode at hg
  split at hg
  · injection hg with hg
  · cases hg

/-- A worker does not see what another does, unless both use the same lock. -/
theorem Inv.sees {P : Par} {d0 : Bytes} {s : Idx c} {t u : Th c} {rest : List (Th c)} {pub : List (List Nat)}
    (I : Inv P d0 s (t :: u :: rest) pub) {e : Eff c} (he : e.Of t.p) : Sees u.p s (e.app s) := by
  obtain ⟨hc, hr, hg⟩ := I.apart
  have St := (I.thr t (by simp)).safe
  cases e with
  | keep => exact ⟨fun _ => ⟨rfl, rfl⟩, fun _ => rfl, fun _ _ _ _ _ => rfl, fun _ => rfl⟩
  | cnt v =>
    obtain ⟨v, k, e⟩ := he
    rw [e] at hc
    exact ⟨fun q => absurd ⟨trivial, q⟩ hc, fun _ => rfl, fun _ _ _ _ _ => rfl, fun _ => rfl⟩
  | mv z =>
    obtain ⟨z, k, e⟩ := he
    rw [e] at hc
    have ht := hg ⟨z, k, e⟩
    refine ⟨fun q => absurd ⟨trivial, q⟩ hc, fun _ => rfl, fun β f k q => ?_, fun q => ?_⟩
    · rw [q] at ht; exact absurd trivial ht
    · cases hu : u.p <;> rw [hu] at q ht <;> first | (cases q; done) | exact absurd trivial ht
  | rng r => exact ⟨fun _ => ⟨rfl, rfl⟩, fun _ => rfl, fun _ _ _ _ _ => rfl, fun _ => rfl⟩
  | node i g =>
    obtain ⟨k, e⟩ := he
    rw [e, Safe] at St
    obtain ⟨ha, hn⟩ := I.node_addr St.2.1
    refine ⟨fun _ => ⟨rfl, rfl⟩, fun _ => rfl, fun β f k q r => ?_, fun q => ?_⟩
    · refine I.swap2.read_eq q _ ?_ r
      intro d x hx
      apply St.2.2.1
      left
      rw [ha]
      exact lt_of_lt_of_le hx (Nat.mul_le_mul_right _ hn)
    · exact (bmem_size_write s _).symm
  | roots rs =>
    obtain ⟨rs, k, e⟩ := he
    rw [e] at hr
    exact ⟨fun _ => ⟨rfl, rfl⟩, fun q => absurd ⟨trivial, q⟩ hr, fun _ _ _ _ _ => rfl, fun _ => rfl⟩

/-- Writes to different nodes commute. -/
theorem write_comm {i j : Nat} (hij : i ≠ j) {f g : Bytes → Nat → Bytes}
    (hf : ∀ d a x, (x < a ∨ a + c.L.nodeSize ≤ x) → f d a x = d x)
    (hfl : ∀ d d' a, (∀ j, j < c.L.nodeSize → d (a + j) = d' (a + j)) →
      ∀ j, j < c.L.nodeSize → f d a (a + j) = f d' a (a + j))
    (hg : ∀ d a x, (x < a ∨ a + c.L.nodeSize ≤ x) → g d a x = d x)
    (hgl : ∀ d d' a, (∀ j, j < c.L.nodeSize → d (a + j) = d' (a + j)) →
      ∀ j, j < c.L.nodeSize → g d a (a + j) = g d' a (a + j)) (d : Bytes) :
    g (f d (i * c.L.nodeSize)) (j * c.L.nodeSize) = f (g d (j * c.L.nodeSize)) (i * c.L.nodeSize) := by
  apply Bytes.ext'; intro x
  by_cases hx : i * c.L.nodeSize ≤ x ∧ x < i * c.L.nodeSize + c.L.nodeSize
  · obtain ⟨m, rfl⟩ : ∃ m, x = i * c.L.nodeSize + m := ⟨x - i * c.L.nodeSize, by omega⟩
    have hm : m < c.L.nodeSize := by omega
    rw [hg _ _ _ (Idx.node_ne hij hm)]
    refine hfl _ _ _ ?_ m hm
    intro m hm
    exact (hg _ _ _ (Idx.node_ne hij hm)).symm
  · have hx' : x < i * c.L.nodeSize ∨ i * c.L.nodeSize + c.L.nodeSize ≤ x := by omega
    rw [hf (g d _) _ _ hx']
    by_cases hy : j * c.L.nodeSize ≤ x ∧ x < j * c.L.nodeSize + c.L.nodeSize
    · obtain ⟨m, rfl⟩ : ∃ m, x = j * c.L.nodeSize + m := ⟨x - j * c.L.nodeSize, by omega⟩
      have hm : m < c.L.nodeSize := by omega
      refine hgl _ _ _ ?_ m hm
      intro m hm
      exact hf _ _ _ (Idx.node_ne (Ne.symm hij) hm)
    · have hy' : x < j * c.L.nodeSize ∨ j * c.L.nodeSize + c.L.nodeSize ≤ x := by omega
      rw [hg _ _ _ hy', hg _ _ _ hy', hf _ _ _ hx']

/-- The effects of two workers commute, unless both draw. -/
theorem Inv.eff_comm {P : Par} {d0 : Bytes} {s : Idx c} {t u : Th c} {rest : List (Th c)} {pub : List (List Nat)}
    (I : Inv P d0 s (t :: u :: rest) pub) {e e' : Eff c} (he : e.Of t.p) (he' : e'.Of u.p)
    (hn : ¬ ∃ r r', e = .rng r ∧ e' = .rng r') : e'.app (e.app s) = e.app (e'.app s) := by
  obtain ⟨hc, hr, hg⟩ := I.apart
  have hg' := I.swap2.apart.2.2
  cases e <;> cases e' <;> try rfl
  case cnt.cnt => obtain ⟨_, _, q⟩ := he; obtain ⟨_, _, q'⟩ := he'; rw [q, q'] at hc; exact absurd ⟨trivial, trivial⟩ hc
  case mv.mv => obtain ⟨_, _, q⟩ := he; obtain ⟨_, _, q'⟩ := he'; rw [q, q'] at hc; exact absurd ⟨trivial, trivial⟩ hc
  case mv.node => obtain ⟨_, q'⟩ := he'; have := hg he; rw [q'] at this; exact absurd trivial this
  case rng.rng r r' => exact absurd ⟨r, r', rfl, rfl⟩ hn
  case node.mv => obtain ⟨_, q'⟩ := he; have := hg' he'; rw [q'] at this; exact absurd trivial this
  case node.node i f j g =>
    obtain ⟨k, q⟩ := he
    obtain ⟨k', q'⟩ := he'
    have St := (I.thr t (by simp)).safe
    have Su := (I.thr u (by simp)).safe
    rw [q, Safe] at St
    rw [q', Safe] at Su
    have hij : i ≠ j := by
      rintro rfl
      exact I.disjoint (u := u) (by simp) St.2.1 Su.2.1
    have a1 := (I.node_addr St.2.1).1
    have a2 := (I.swap2.node_addr Su.2.1).1
    dsimp only [Eff.app, Idx.write]
    rw [a1, a2, write_comm hij St.2.2.1 St.2.2.2.1 Su.2.2.1 Su.2.2.2.1]
  case roots.roots => obtain ⟨_, _, q⟩ := he; obtain ⟨_, _, q'⟩ := he'; rw [q, q'] at hr; exact absurd ⟨trivial, trivial⟩ hr

/-- Two accesses of different workers can be exchanged. -/
theorem Inv.swap {P : Par} {d0 : Bytes} {s s1 s2 : Idx c} {t u : Th c} {rest : List (Th c)} {pub : List (List Nat)}
    (I : Inv P d0 s (t :: u :: rest) pub) (n1 : ¬ LockOp t.p) (n2 : ¬ LockOp u.p) {o1 o2 : List Held}
    {h1 h2 : Held} {p1 p2 : Prog c} (st1 : TStep o1 s t.h t.p s1 h1 p1) (st2 : TStep o2 s1 u.h u.p s2 h2 p2)
    (o3 o4 : List Held) : ∃ s', TStep o3 s u.h u.p s' h2 p2 ∧ TStep o4 s' t.h t.p s2 h1 p1 := by
  obtain ⟨e1, rfl, of1, _, go1, dr1⟩ := access st1 n1
  obtain ⟨e2, rfl, of2, _, go2, _⟩ := access st2 n2
  refine ⟨e2.app s, go2 _ _ (I.sees of1).symm, ?_⟩
  by_cases hd : ∃ r r', e1 = .rng r ∧ e2 = .rng r'
  · obtain ⟨r, r', rfl, rfl⟩ := hd
    exact dr1 r rfl r' _ _ (I.swap2.sees of2)
  · rw [I.eff_comm of1 of2 hd]
    exact go1 _ _ (I.swap2.sees of2)

end Conc
end Annoy
