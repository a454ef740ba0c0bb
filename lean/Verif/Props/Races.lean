import Verif.Proof.Commute
import Verif.Props.Conc
/-!
# C72: the workers of a build have no data races

apart from the generator (which the model lets everybody use at any time).
-/
namespace Annoy
open Conc

/-- The actions of the workers, by number, are the steps of the build. -/
theorem C72_steps {c : Cfg} {x y : Conf c} : Step x y ↔ ∃ k, StepOf k x y := by
  constructor
  · rintro ⟨pre, post, st⟩
    rename_i s s' h h' p p'
    refine ⟨pre.length, h, p, h', p', ?_, ?_, ?_⟩
    · simp
    · have : (pre ++ (h, p) :: post).eraseIdx pre.length = pre ++ post := by
        rw [List.eraseIdx_append_of_length_le (Nat.le_refl _)]; simp
      dsimp only
      rw [this]; exact st
    · simp
  · rintro ⟨k, h, p, h', p', hk, st, e⟩
    obtain ⟨s, ths⟩ := x
    obtain ⟨s', ths'⟩ := y
    dsimp only at *
    subst e
    obtain ⟨hlt, hk⟩ := List.getElem?_eq_some_iff.1 hk
    have e1 : ths = ths.take k ++ (h, p) :: ths.drop (k + 1) := by
      rw [← hk]; simp
    have e2 : ths.set k (h', p') = ths.take k ++ (h', p') :: ths.drop (k + 1) :=
      List.set_eq_take_append_cons_drop .. |>.trans (if_pos hlt)
    rw [e2]
    conv => lhs; rw [e1]
    apply Step.mk
    rw [List.eraseIdx_eq_take_drop_succ] at st
    exact st

theorem others_mem {c : Cfg} {l : List (Held × Prog c)} {k : Nat} {y : Held} :
    y ∈ (l.eraseIdx k).map Prod.fst ↔ ∃ i p, i ≠ k ∧ l[i]? = some (y, p) := by
  rw [List.mem_map]
  constructor
  · rintro ⟨⟨h, p⟩, hm, rfl⟩
    obtain ⟨i, hi, e⟩ := List.mem_eraseIdx_iff_getElem?.1 hm
    exact ⟨i, p, hi, e⟩
  · rintro ⟨i, p, hi, e⟩
    exact ⟨(y, p), List.mem_eraseIdx_iff_getElem?.2 ⟨i, hi, e⟩, rfl⟩

theorem Conf.Two.of_getElem? {c : Cfg} {x : Conf c} {k k' : Nat} {a b : Held × Prog c} (hk : k ≠ k')
    (ha : x.ths[k]? = some a) (hb : x.ths[k']? = some b) : Conf.Two x a b := by
  obtain ⟨ha, ea⟩ := List.getElem?_eq_some_iff.1 ha
  obtain ⟨hb, eb⟩ := List.getElem?_eq_some_iff.1 hb
  have key : ∀ (l : List (Held × Prog c)) (i j : Nat) (hi : i < l.length) (hj : j < l.length), i < j →
      ∃ pre mid post, l = pre ++ l[i] :: mid ++ l[j] :: post := by
    intro l i j hi hj hij
    refine ⟨l.take i, (l.take j).drop (i + 1), l.drop (j + 1), ?_⟩
    have gen : ∀ (l : List (Held × Prog c)) (i : Nat) (hi : i < l.length),
        l = l.take i ++ l[i] :: l.drop (i + 1) := by intro l i hi; simp
    have h1 := gen l j hj
    have h2 : l.take j = l.take i ++ l[i] :: (l.take j).drop (i + 1) := by
      have hlt : i < (l.take j).length := by rw [List.length_take]; omega
      have := gen (l.take j) i hlt
      rw [List.take_take, Nat.min_eq_left (by omega), List.getElem_take] at this
      exact this
    rw [← h2]; exact h1
  rcases Nat.lt_or_gt_of_ne hk with h | h
  · obtain ⟨pre, mid, post, e⟩ := key _ _ _ ha hb h
    rw [ea, eb] at e
    exact ⟨pre, mid, post, Or.inl e⟩
  · obtain ⟨pre, mid, post, e⟩ := key _ _ _ hb ha h
    rw [ea, eb] at e
    exact ⟨pre, mid, post, Or.inr e⟩

/-- **C72**: at every moment of every build, if worker `k` does one action and then another worker `k'` does one, and not
both actions are lock operations, they could have acted in the opposite order: the same two actions then are possible
and lead to the same index and the same workers.  So the order of accesses to memory, counters and roots by different
workers matters only through the locks. -/
theorem C72_commute {c : Cfg} {adds : List (Nat × List c.N.V)} {trees : Int} {W : Nat} {x y z : Conf c}
    (hr : Running c adds trees W x) {k k' : Nat} (hk : k ≠ k') (h1 : StepOf k x y) (h2 : StepOf k' y z)
    (hl : ∀ a b, x.ths[k]? = some a → x.ths[k']? = some b → ¬ (LockOp a.2 ∧ LockOp b.2)) :
    ∃ y', StepOf k' x y' ∧ StepOf k y' z := by
  obtain ⟨h, p, h', p', e1, st1, f1⟩ := h1
  obtain ⟨g, q, g', q', e2, st2, f2⟩ := h2
  rw [f1, List.getElem?_set_ne hk] at e2
  have hl := hl _ _ e1 e2
  dsimp only at hl
  have klt := (List.getElem?_eq_some_iff.1 e1).1
  have klt' := (List.getElem?_eq_some_iff.1 e2).1
  have zths : z.ths = (x.ths.set k' (g', q')).set k (h', p') := by
    rw [f2, f1, List.set_comm _ _ hk]
  have e1' : (x.ths.set k' (g', q'))[k]? = some (h, p) := by rw [List.getElem?_set_ne hk.symm]; exact e1
  -- the locks of the others, before and after a step that only changes `moving`
  have keep : ∀ (i j : Nat) (a a' : Held) (r r' : Prog c), i ≠ j → x.ths[i]? = some (a, r) →
      (a'.nn = a.nn ∧ a'.rd = a.rd ∧ a'.rt = a.rt ∧ a'.wr = a.wr) →
      (∀ y ∈ ((x.ths.set i (a', r')).eraseIdx j).map Prod.fst, ∃ w ∈ (x.ths.eraseIdx j).map Prod.fst,
        y.nn = w.nn ∧ y.rd = w.rd ∧ y.rt = w.rt ∧ y.wr = w.wr) ∧
      (∀ w ∈ (x.ths.eraseIdx j).map Prod.fst, ∃ y ∈ ((x.ths.set i (a', r')).eraseIdx j).map Prod.fst,
        w.nn = y.nn ∧ w.rd = y.rd ∧ w.rt = y.rt ∧ w.wr = y.wr) := by
    intro i j a a' r r' hij ei hq
    have ilt := (List.getElem?_eq_some_iff.1 ei).1
    constructor
    · intro y hy
      obtain ⟨m, pm, hm, em⟩ := others_mem.1 hy
      by_cases him : i = m
      · subst him
        rw [List.getElem?_set_self ilt] at em
        injection em with em; injection em with em; subst em
        exact ⟨a, others_mem.2 ⟨i, r, hij, ei⟩, hq⟩
      · rw [List.getElem?_set_ne him] at em
        exact ⟨y, others_mem.2 ⟨m, pm, hm, em⟩, rfl, rfl, rfl, rfl⟩
    · intro w hw
      obtain ⟨m, pm, hm, em⟩ := others_mem.1 hw
      by_cases him : i = m
      · subst him
        rw [ei] at em
        injection em with em; injection em with em; subst em
        exact ⟨a', others_mem.2 ⟨i, r', hij, List.getElem?_set_self ilt⟩, hq.1.symm, hq.2.1.symm, hq.2.2.1.symm,
          hq.2.2.2.symm⟩
      · exact ⟨w, others_mem.2 ⟨m, pm, hm, by rw [List.getElem?_set_ne him]; exact em⟩, rfl, rfl, rfl, rfl⟩
  by_cases l1 : LockOp p
  · have l2 : ¬ LockOp q := fun q => hl ⟨l1, q⟩
    obtain ⟨es, go1⟩ := locking st1 l1
    obtain ⟨e, hz, _, hh, go2, _⟩ := access st2 l2
    rw [es] at hz go2
    refine ⟨⟨e.app x.idx, x.ths.set k' (g', q')⟩, ⟨g, q, g', q', e2, ?_, rfl⟩, ⟨h, p, h', p', e1', ?_, zths⟩⟩
    · exact go2 _ _ ⟨fun _ => ⟨rfl, rfl⟩, fun _ => rfl, fun _ _ _ _ _ => rfl, fun _ => rfl⟩
    · rw [hz]; exact go1 _ _ (keep k' k g g' q q' hk.symm e2 hh).1
  · by_cases l2 : LockOp q
    · obtain ⟨es, go2⟩ := locking st2 l2
      obtain ⟨e, hy, _, hh, go1, _⟩ := access st1 l1
      refine ⟨⟨x.idx, x.ths.set k' (g', q')⟩, ⟨g, q, g', q', e2, ?_, rfl⟩, ⟨h, p, h', p', e1', ?_, zths⟩⟩
      · apply go2
        rw [f1]
        exact (keep k k' h h' p p' hk e1 hh).2
      · rw [es, hy]
        exact go1 _ _ ⟨fun _ => ⟨rfl, rfl⟩, fun _ => rfl, fun _ _ _ _ _ => rfl, fun _ => rfl⟩
    · obtain ⟨d0, hg⟩ := hr.good
      obtain ⟨t, u, rest, pub, et, eu, I⟩ := hg.two (Conf.Two.of_getElem? hk e1 e2)
      injection et with et1 et2
      injection eu with eu1 eu2
      subst et1 et2 eu1 eu2
      obtain ⟨s', a, b⟩ := I.swap l1 l2 st1 st2 ((x.ths.eraseIdx k').map Prod.fst)
        (((x.ths.set k' (g', q')).eraseIdx k).map Prod.fst)
      exact ⟨⟨s', x.ths.set k' (g', q')⟩, ⟨_, _, g', q', e2, a, rfl⟩, ⟨_, _, h', p', e1', b, zths⟩⟩

/-- A worker with trees to build starts by reading the first item, under the read lock. -/
theorem worker_eq {c : Cfg} {n : Nat} {trees : Int} (hn : 0 < n) (ht : 0 < trees) :
    ∃ (β : Type) (f : Block → c.R.σ → Except Err (β × c.R.σ)) (k : β → Prog c),
      Prog.worker n trees = .rlock (.read f k) := by
  obtain ⟨m, rfl⟩ : ∃ m, n = m + 1 := ⟨n - 1, by omega⟩
  unfold Prog.worker
  rw [show m + 1 + trees.toNat + 2 = (m + 1 + trees.toNat + 1) + 1 by omega]
  unfold Prog.thread
  dsimp only
  rw [if_neg (by omega), if_neg (by simp; omega), List.range_succ_eq_map]
  exact ⟨_, _, _, rfl⟩

theorem Running.started {c : Cfg} (hc : c.WF) {adds : List (Nat × List c.N.V)} (hl : LegalAdds c adds) {trees : Int}
    {W : Nat} (hf : c.L.Fits (multiBound (slotCount adds) trees W)) (r : c.R.σ) (hint : Nat) :
    ∃ s1 : Idx c, Running c adds trees W (startWorkers s1 trees W) ∧ s1.nItems = slotCount adds := by
  obtain ⟨s, h1, h2, h3, h4, _⟩ := addAll_spec hc adds _ _ _ (Idx.ItemInv.new c hc.layout r hint) hl
  have h2' : s.ItemInv (lastAdded adds) (slotCount adds) := by simpa using h2
  obtain ⟨s1, g1, g2, _⟩ := Idx.buildStart_spec hc h2' h4
  exact ⟨s1, ⟨hc, hl, hf, _, _, s, s1, h1, g1, .refl _⟩, g2.nItems⟩

/-- There is such a moment in the build of the repository's angular index with twenty items and three workers: the first
two workers have taken the read lock, and read an item each. -/
example : ∃ x y z, Running (oracle32 12) (longAdds 20) 5 3 x ∧ StepOf 0 x y ∧ StepOf 1 y z ∧
    ∀ a b, x.ths[0]? = some a → x.ths[1]? = some b → ¬ (LockOp a.2 ∧ LockOp b.2) := by
  obtain ⟨s1, hr, hn⟩ := Running.started (oracle32_wf (f := 12) (by decide)) (adds := longAdds 20)
    (legalAdds_of (by decide +kernel)) (trees := 5) (W := 3) (by decide +kernel) (fun _ => 0) 0
  have hn : 0 < s1.nItems := by
    rw [hn]; decide +kernel
  obtain ⟨β, f, k, e⟩ := worker_eq (c := oracle32 12) hn (trees := 1) (by decide)
  obtain ⟨β', f', k', e'⟩ := worker_eq (c := oracle32 12) hn (trees := 2) (by decide)
  have hx : startWorkers s1 5 3 = ⟨s1, [({}, .rlock (.read f k)), ({}, .rlock (.read f' k')),
      ({}, .rlock (.read f' k'))]⟩ := by
    rw [← e, ← e']; rfl
  rw [hx] at hr
  let x : Conf (oracle32 12) := ⟨s1, [({ rd := true }, .read f k), ({ rd := true }, .read f' k'),
      ({}, .rlock (.read f' k'))]⟩
  have hr : Running (oracle32 12) (longAdds 20) 5 3 x := by
    refine (hr.step (.mk [] [({}, .rlock (.read f' k')), ({}, .rlock (.read f' k'))]
      (.rlock (by simp) rfl rfl))).step (.mk [({ rd := true }, .read f k)] [({}, .rlock (.read f' k'))]
      (.rlock (by simp) rfl rfl))
  have reads : ∀ (t : Idx (oracle32 12)) (o : List Held) (h : Held) (β : Type)
      (f : Block → (oracle32 12).R.σ → Except Err (β × (oracle32 12).R.σ)) (k : β → Prog (oracle32 12)),
      ∃ t' p', TStep o t h (.read f k) t' h p' := by
    intro t o h β f k
    cases hf : f t.bmem t.rng with
    | error e => exact ⟨_, _, .readErr _ hf⟩
    | ok v => exact ⟨_, _, .read _ t.rng (x := v.1) (r'' := v.2) hf⟩
  obtain ⟨t, p, st⟩ := reads s1 ((x.ths.eraseIdx 0).map Prod.fst) { rd := true } β f k
  obtain ⟨t', p', st'⟩ := reads t (((x.ths.set 0 ({ rd := true }, p)).eraseIdx 1).map Prod.fst) { rd := true }
    β' f' k'
  refine ⟨x, ⟨t, x.ths.set 0 ({ rd := true }, p)⟩, ⟨t', (x.ths.set 0 ({ rd := true }, p)).set 1 ({ rd := true }, p')⟩,
    hr, ⟨_, _, _, _, rfl, st, rfl⟩, ⟨_, _, _, _, rfl, st', rfl⟩, ?_⟩
  rintro a b ha -
  injection ha with ha
  subst ha
  exact fun q => q.1

end Annoy
