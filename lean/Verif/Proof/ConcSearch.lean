import Verif.Model.ConcSearch
import Verif.Spec.Cfg
import Mathlib.Logic.Function.Iterate
import Mathlib.Tactic.Set
import Mathlib.Data.List.Induction
import Mathlib.Data.List.Nodup
/-!
The step machine of a search computes the same as `Search.run`, and searches with different contexts do not meet.
-/
namespace Annoy
namespace ConcSearch
variable {c : Cfg} (k : Call c)

/-- A step of a goroutine and its context. -/
def Call.next (p : Task c × Ctx c) : Task c × Ctx c := k.step p.1 p.2

/-- `q` after some steps from `p`. -/
def Call.Reaches (p q : Task c × Ctx c) : Prop := ∃ n, k.next^[n] p = q

variable {k}

theorem Call.Reaches.trans {p q r : Task c × Ctx c} (h : k.Reaches p q) (h' : k.Reaches q r) : k.Reaches p r := by
  obtain ⟨m, rfl⟩ := h
  obtain ⟨n, rfl⟩ := h'
  exact ⟨n + m, Function.iterate_add_apply _ _ _ _⟩

theorem Call.Reaches.refl (p : Task c × Ctx c) : k.Reaches p p := ⟨0, rfl⟩

theorem Call.Reaches.head {p q r : Task c × Ctx c} (h : k.next p = q) (h' : k.Reaches q r) : k.Reaches p r := by
  obtain ⟨n, rfl⟩ := h'
  exact ⟨n + 1, by rw [Function.iterate_succ_apply, h]⟩

theorem next_ended {p : Task c × Ctx c} (h : p.1.ended) : k.next p = p := by
  obtain ⟨t, x⟩ := p
  cases t <;> first | rfl | exact h.elim

theorem iterate_ended {p : Task c × Ctx c} (h : p.1.ended) (n : Nat) : k.next^[n] p = p :=
  Function.iterate_fixed (next_ended h) n

/-- A machine that stops does so at one place. -/
theorem Reaches.unique {p q r : Task c × Ctx c} (h : k.Reaches p q) (h' : k.Reaches p r) (hq : q.1.ended) (hr : r.1.ended) :
    q = r := by
  obtain ⟨m, rfl⟩ := h
  obtain ⟨n, rfl⟩ := h'
  rcases Nat.le_total m n with hmn | hmn
  · obtain ⟨d, rfl⟩ := Nat.exists_eq_add_of_le hmn
    rw [Nat.add_comm m d, Function.iterate_add_apply, iterate_ended hq]
  · obtain ⟨d, rfl⟩ := Nat.exists_eq_add_of_le hmn
    rw [Nat.add_comm n d, Function.iterate_add_apply, iterate_ended hr]

/-- The collecting loop. -/
theorem collect_reaches : ∀ (fuel : Nat) (q : List (c.N.V × Nat)) (cnt : Nat) (x : Ctx c),
    match Search.loop c k.mem k.nItems k.query k.budget fuel q x.nns cnt with
    | .ok (buf, cnt') => k.Reaches (.collect q cnt, x) (.sortIds cnt', { x with nns := buf })
    | .error e => (∃ x', k.Reaches (.collect q cnt, x) (.failed e, x')) ∨
        (e = .diverge ∧ ∃ q' cnt' x', k.next^[fuel] (.collect q cnt, x) = (.collect q' cnt', x')) := by
  intro fuel
  induction fuel with
  | zero => intro q cnt x; exact .inr ⟨rfl, q, cnt, x, rfl⟩
  | succ fuel ih =>
    intro q cnt x
    -- one turn, then the rest
    have turn : ∀ (q' : List (c.N.V × Nat)) (cnt' : Nat) (x' : Ctx c),
        k.step (.collect q cnt) x = (.collect q' cnt', x') → x'.dist = x.dist →
        match Search.loop c k.mem k.nItems k.query k.budget fuel q' x'.nns cnt' with
        | .ok (buf, cnt'') => k.Reaches (.collect q cnt, x) (.sortIds cnt'', { x with nns := buf })
        | .error e => (∃ x', k.Reaches (.collect q cnt, x) (.failed e, x')) ∨
          (e = .diverge ∧ ∃ q' cnt' x', k.next^[fuel + 1] (.collect q cnt, x) = (.collect q' cnt', x')) := by
      intro q' cnt' x' hs hd
      have := ih q' cnt' x'
      split at this
      · next buf cnt'' hl =>
        have e : ({ x' with nns := buf } : Ctx c) = { x with nns := buf } := by
          cases x; cases x'; cases hd; rfl
        rw [e] at this
        exact Call.Reaches.head hs this
      · next e hl =>
        rcases this with ⟨y, hy⟩ | ⟨he, q2, c2, x2, hy⟩
        · exact .inl ⟨y, Call.Reaches.head hs hy⟩
        · refine .inr ⟨he, q2, c2, x2, ?_⟩
          rw [Function.iterate_succ_apply]
          show k.next^[fuel] (k.step (.collect q cnt) x) = _
          rw [hs, hy]
    have stop : ∀ e y, k.step (.collect q cnt) x = (.failed e, y) →
        (∃ x', k.Reaches (.collect q cnt, x) (.failed e, x')) := fun e y h => ⟨y, Call.Reaches.head h (.refl _)⟩
    unfold Search.loop
    by_cases hb : (cnt : Int) < k.budget
    · rw [if_pos hb]
      cases hp : Heap.pop (pairLess c.N) q with
      | none =>
        simp only [hp]
        exact Call.Reaches.head (by show k.step _ _ = _; simp only [Call.step, if_pos hb, hp]) (.refl _)
      | some r =>
        obtain ⟨⟨d, i⟩, q1⟩ := r
        simp only [hp]
        cases hg : getNode c.L k.mem i with
        | error e => exact .inl (stop e x (by simp only [Call.step, if_pos hb, hp, hg]))
        | ok a =>
          simp only [bind, Except.bind]
          by_cases h1 : Node.nDesc c.L k.mem.get a = 1 ∧ i < k.nItems
          · rw [if_pos h1]
            by_cases h2 : cnt < x.nns.length
            · rw [if_pos h2]
              exact turn q1 (cnt + 1) { x with nns := x.nns.set cnt i }
                (by simp only [Call.step, if_pos hb, hp, hg, if_pos h1, if_pos h2]) rfl
            · rw [if_neg h2]
              exact .inl (stop _ x (by simp only [Call.step, if_pos hb, hp, hg, if_pos h1, if_neg h2]))
          · rw [if_neg h1]
            by_cases h3 : Node.nDesc c.L k.mem.get a ≤ c.L.K
            · rw [if_pos h3]
              by_cases h2 : cnt ≤ x.nns.length
              · rw [if_pos h2]
                exact turn q1 _ { x with nns := Search.copyAt x.nns cnt (Node.getChildren c.L k.mem.get a) }
                  (by simp only [Call.step, if_pos hb, hp, hg, if_neg h1, if_pos h3, if_pos h2]) rfl
              · rw [if_neg h2]
                exact .inl (stop _ x (by simp only [Call.step, if_pos hb, hp, hg, if_neg h1, if_pos h3, if_neg h2]))
            · rw [if_neg h3]
              cases hm : c.D.margin k.mem.get a k.query with
              | error e => exact .inl (stop e x (by simp only [Call.step, if_pos hb, hp, hg, if_neg h1, if_neg h3, hm]))
              | ok margin =>
                exact turn _ cnt x (by simp only [Call.step, if_pos hb, hp, hg, if_neg h1, if_neg h3, hm]) rfl
    · rw [if_neg hb]
      exact Call.Reaches.head (by show k.step _ _ = _; simp only [Call.step, if_neg hb]) (.refl _)

/-- The distance loop. -/
theorem measure_reaches (vn : Bytes) (len : Nat) : ∀ (js : List Nat) (i cnt : Nat) (last : Option Nat) (x : Ctx c),
    (x.nns.take len).drop i = js → len ≤ x.nns.length → i ≤ len → cnt + js.length ≤ x.dist.length →
    match Search.distances c k.mem vn last js with
    | .ok r => k.Reaches (.measure vn len i cnt last, x)
        (.sortPairs (cnt + r.length),
          { x with dist := x.dist.take cnt ++ r ++ x.dist.drop (cnt + r.length) })
    | .error e => ∃ x', k.Reaches (.measure vn len i cnt last, x) (.failed e, x') := by
  intro js
  induction js with
  | nil =>
    intro i cnt last x hd hlen hi hc
    have : ¬ i < len := by
      have := congrArg List.length hd
      simp at this
      omega
    simp only [Search.distances]
    refine Call.Reaches.head (q := (.sortPairs cnt, x)) (by show k.step _ _ = _; simp only [Call.step, if_neg this]) ?_
    simp only [List.length_nil, Nat.add_zero, List.append_nil, List.take_append_drop]
    exact .refl _
  | cons j js ih =>
    intro i cnt last x hd hlen hi hc
    have hi' : i < len := by
      have := congrArg List.length hd
      simp at this
      omega
    have hj : x.nns[i]? = some j := by
      have : ((x.nns.take len).drop i)[0]? = some j := by rw [hd]; rfl
      rw [List.getElem?_drop, List.getElem?_take] at this
      simpa [hi'] using this
    have hd' : (x.nns.take len).drop (i + 1) = js := by
      rw [← List.drop_drop, hd]
      rfl
    simp only [List.length_cons] at hc
    unfold Search.distances
    by_cases hl : last = some j
    · rw [if_pos hl]
      have := ih (i + 1) cnt last x hd' hlen hi' (by omega)
      have hs : k.next (.measure vn len i cnt last, x) = (.measure vn len (i + 1) cnt last, x) := by
        show k.step _ _ = _
        simp only [Call.step, if_pos hi', hj, if_pos hl]
      split at this
      · exact Call.Reaches.head hs this
      · obtain ⟨y, hy⟩ := this
        exact ⟨y, Call.Reaches.head hs hy⟩
    · rw [if_neg hl]
      cases hg : getNode c.L k.mem j with
      | error e =>
        refine ⟨x, Call.Reaches.head (q := (.failed e, x)) ?_ (.refl _)⟩
        show k.step _ _ = _
        simp only [Call.step, if_pos hi', hj, if_neg hl, hg]
      | ok a =>
        simp only [bind, Except.bind]
        by_cases h1 : Node.nDesc c.L k.mem.get a = 1
        · have hs : k.next (.measure vn len i cnt last, x) = (.measure vn len (i + 1) (cnt + 1) (some j),
              { x with dist := x.dist.set cnt (c.D.distance vn 0 k.mem.get a, j) }) := by
            show k.step _ _ = _
            simp only [Call.step, if_pos hi', hj, if_neg hl, hg, if_pos h1, if_pos (show cnt < x.dist.length by omega)]
          have := ih (i + 1) (cnt + 1) (some j) { x with dist := x.dist.set cnt (c.D.distance vn 0 k.mem.get a, j) } hd' hlen hi'
            (by simp only [List.length_set]; omega)
          cases hr : Search.distances c k.mem vn (some j) js with
          | error e =>
            rw [hr] at this
            obtain ⟨y, hy⟩ := this
            exact ⟨y, Call.Reaches.head hs hy⟩
          | ok r =>
            rw [hr] at this
            simp only [if_pos h1]
            refine Call.Reaches.head hs ?_
            have e1 : (x.dist.set cnt (c.D.distance vn 0 k.mem.get a, j)).take (cnt + 1) =
                x.dist.take cnt ++ [(c.D.distance vn 0 k.mem.get a, j)] := by
              rw [List.take_add_one, List.getElem?_set_self (by omega), List.take_set_of_le (by omega)]
              rfl
            have e2 : (x.dist.set cnt (c.D.distance vn 0 k.mem.get a, j)).drop (cnt + 1 + r.length) =
                x.dist.drop (cnt + (r.length + 1)) := by
              rw [List.drop_set_of_lt (by omega), Nat.add_assoc, Nat.add_comm 1]
            simp only [e1, e2, List.append_assoc, List.singleton_append] at this
            simp only [List.length_cons, List.append_assoc]
            rw [show cnt + (r.length + 1) = cnt + 1 + r.length by omega] at *
            exact this
        · have hs : k.next (.measure vn len i cnt last, x) = (.measure vn len (i + 1) cnt (some j), x) := by
            show k.step _ _ = _
            simp only [Call.step, if_pos hi', hj, if_neg hl, hg, if_neg h1]
          have := ih (i + 1) cnt (some j) x hd' hlen hi' (by omega)
          cases hr : Search.distances c k.mem vn (some j) js with
          | error e =>
            rw [hr] at this
            obtain ⟨y, hy⟩ := this
            exact ⟨y, Call.Reaches.head hs hy⟩
          | ok r =>
            rw [hr] at this
            simp only [if_neg h1]
            exact Call.Reaches.head hs this

/-- The loop that fills the result slices. -/
theorem answer_reaches (middle : Nat) (x : Ctx c) : ∀ (n i : Nat) (ids : List Nat) (ds : List c.N.V),
    i + n = middle → middle ≤ x.dist.length →
    k.Reaches (.answer middle i ids ds, x)
      (.done (ids ++ ((x.dist.take middle).drop i).map Prod.snd)
        (ds ++ ((x.dist.take middle).drop i).map fun p => c.D.normalizedDistance p.1), x) := by
  intro n
  induction n with
  | zero =>
    intro i ids ds hi hm
    have : (x.dist.take middle).drop i = [] := List.drop_eq_nil_of_le (by simp; omega)
    rw [this]
    simp only [List.map_nil, List.append_nil]
    exact Call.Reaches.head (by show k.step _ _ = _; simp only [Call.step, if_neg (show ¬ i < middle by omega)]) (.refl _)
  | succ n ih =>
    intro i ids ds hi hm
    have hi' : i < middle := by omega
    have hg : x.dist[i]? = some x.dist[i] := List.getElem?_eq_getElem (by omega)
    refine Call.Reaches.head (q := (.answer middle (i + 1) (ids ++ [x.dist[i].2]) (ds ++ [c.D.normalizedDistance x.dist[i].1]), x))
      (by show k.step _ _ = _; simp only [Call.step, if_pos hi', hg]) ?_
    have := ih (i + 1) (ids ++ [x.dist[i].2]) (ds ++ [c.D.normalizedDistance x.dist[i].1]) (by omega) hm
    have e : (x.dist.take middle).drop i = x.dist[i] :: (x.dist.take middle).drop (i + 1) := by
      rw [List.drop_eq_getElem_cons (by simp; omega), List.getElem_take]
    rw [e]
    simpa using this

theorem copyAt_length {buf src : List Nat} {cnt : Nat} (h : cnt ≤ buf.length) :
    (Search.copyAt buf cnt src).length = buf.length := by
  unfold Search.copyAt
  simp only [List.length_append, List.length_take, List.length_drop]
  omega

/-- The collecting loop keeps the length of the buffer. -/
theorem loop_length {mem : Block} {n : Nat} {query : List c.N.V} {b : Int} : ∀ {fuel : Nat} {q : List (c.N.V × Nat)}
    {buf buf' : List Nat} {cnt cnt' : Nat}, Search.loop c mem n query b fuel q buf cnt = .ok (buf', cnt') →
    buf'.length = buf.length := by
  intro fuel
  induction fuel with
  | zero => intro q buf buf' cnt cnt' h; cases h
  | succ fuel ih =>
    intro q buf buf' cnt cnt' h
    unfold Search.loop at h
    by_cases hb : (cnt : Int) < b
    · rw [if_pos hb] at h
      cases hp : Heap.pop (pairLess c.N) q with
      | none => rw [hp] at h; cases h; rfl
      | some r =>
        obtain ⟨⟨d, i⟩, q1⟩ := r
        simp only [hp, bind, Except.bind] at h
        cases hg : getNode c.L mem i with
        | error e => rw [hg] at h; cases h
        | ok a =>
          rw [hg] at h
          dsimp only at h
          by_cases h1 : Node.nDesc c.L mem.get a = 1 ∧ i < n
          · rw [if_pos h1] at h
            by_cases h2 : cnt < buf.length
            · rw [if_pos h2] at h
              simpa using ih h
            · rw [if_neg h2] at h; cases h
          · rw [if_neg h1] at h
            by_cases h3 : Node.nDesc c.L mem.get a ≤ c.L.K
            · rw [if_pos h3] at h
              by_cases h2 : cnt ≤ buf.length
              · rw [if_pos h2] at h
                rw [ih h, copyAt_length h2]
              · rw [if_neg h2] at h; cases h
            · rw [if_neg h3] at h
              cases hm : c.D.margin mem.get a query with
              | error e => rw [hm] at h; cases h
              | ok margin => rw [hm] at h; exact ih h
    · rw [if_neg hb] at h
      cases h; rfl

theorem distances_length {mem : Block} {vn : Bytes} : ∀ {js : List Nat} {last : Option Nat} {r : List (c.N.V × Nat)},
    Search.distances c mem vn last js = .ok r → r.length ≤ js.length := by
  intro js
  induction js with
  | nil => intro last r h; cases h; exact Nat.le_refl _
  | cons j js ih =>
    intro last r h
    unfold Search.distances at h
    by_cases hl : last = some j
    · rw [if_pos hl] at h
      exact Nat.le_succ_of_le (ih h)
    · rw [if_neg hl] at h
      cases hg : getNode c.L mem j with
      | error e => rw [hg] at h; cases h
      | ok a =>
        simp only [hg, bind, Except.bind] at h
        cases hr : Search.distances c mem vn (some j) js with
        | error e => rw [hr] at h; cases h
        | ok r' =>
          rw [hr] at h
          dsimp only at h
          have := ih hr
          split at h <;> cases h <;> simp <;> omega

/-- The whole call: what `Search.run` says is where the machine stops, or it is still collecting. -/
theorem run_reaches (hc : c.WF) (fuel : Nat) (x : Ctx c) (hx : x.dist.length = x.nns.length) :
    match Search.run c fuel k.mem k.nItems k.roots k.query k.numReturn k.numInspect x with
    | .ok (ids, ds, x') => k.Reaches (k.start, x) (.done ids ds, x')
    | .error e => (∃ x', k.Reaches (k.start, x) (.failed e, x')) ∨
        (e = .diverge ∧ ∃ q cnt x', k.next^[fuel] (k.start, x) = (.collect q cnt, x')) := by
  have h := collect_reaches (k := k) fuel (Search.initQueue c k.roots) 0 x
  unfold Search.run
  have hb : (if k.numInspect = -1 then k.numReturn * k.roots.length else k.numInspect) = k.budget := rfl
  simp only [hb]
  cases hl : Search.loop c k.mem k.nItems k.query k.budget fuel (Search.initQueue c k.roots) x.nns 0 with
  | error e => rw [hl] at h; exact h
  | ok p =>
    obtain ⟨buf, cnt⟩ := p
    rw [hl] at h
    simp only [bind, Except.bind]
    have hlen : buf.length = x.nns.length := loop_length hl
    by_cases h1 : cnt > buf.length
    · rw [if_pos h1]
      refine .inl ⟨_, h.trans (Call.Reaches.head (q := (.failed (.panic "slice bounds out of range"), { x with nns := buf })) ?_ (.refl _))⟩
      show k.step _ _ = _
      simp only [Call.step, if_pos h1]
    · rw [if_neg h1]
      have h2 : k.Reaches (k.start, x) (.prepare cnt, { x with nns := c.sortIds (buf.take cnt) ++ buf.drop cnt }) :=
        h.trans (Call.Reaches.head (by show k.step _ _ = _; simp only [Call.step, if_neg h1]) (.refl _))
      cases hq : Search.queryNode c k.query with
      | error e =>
        refine .inl ⟨_, h2.trans (Call.Reaches.head
          (q := (.failed e, { x with nns := c.sortIds (buf.take cnt) ++ buf.drop cnt })) ?_ (.refl _))⟩
        show k.step _ _ = _
        simp only [Call.step, hq]
      | ok vn =>
        have h3 := h2.trans (Call.Reaches.head (q := (.measure vn cnt 0 0 none, { x with nns := c.sortIds (buf.take cnt) ++ buf.drop cnt }))
          (by show k.step _ _ = _; simp only [Call.step, hq]) (.refl _))
        have hsl : (c.sortIds (buf.take cnt)).length = cnt := by
          rw [(hc.sortIds_perm _).length_eq, List.length_take]; omega
        have h4 := measure_reaches (k := k) vn cnt (c.sortIds (buf.take cnt)) 0 0 none
          { x with nns := c.sortIds (buf.take cnt) ++ buf.drop cnt }
          (by simp only [List.drop_zero]; rw [List.take_left' hsl]) (by simp [hsl]) (Nat.zero_le _)
          (by simp only [hsl]; omega)
        cases hr : Search.distances c k.mem vn none (c.sortIds (buf.take cnt)) with
        | error e =>
          rw [hr] at h4
          obtain ⟨y, hy⟩ := h4
          simp only [hr]
          exact .inl ⟨y, h3.trans hy⟩
        | ok r =>
          rw [hr] at h4
          simp only [hr]
          have hrl : r.length ≤ x.dist.length := by
            have := distances_length hr
            omega
          simp only [Nat.zero_add, List.take_zero, List.nil_append] at h4
          have h5 := h3.trans h4
          set middle : Int := if k.numReturn < (r.length : Int) then k.numReturn else r.length with hmid
          have h6 := h5.trans (Call.Reaches.head (q := (.answer middle.toNat 0 [] [],
            { nns := c.sortIds (buf.take cnt) ++ buf.drop cnt,
              dist := c.partialSort r 0 middle r.length ++ x.dist.drop r.length }))
            (by
              show k.step _ _ = _
              simp only [Call.step, List.take_left' rfl, List.drop_left' rfl, ← hmid]) (.refl _))
          have hpl : (c.partialSort r 0 middle r.length).length = r.length := (hc.partialSort_perm r middle).length_eq
          have hmle : middle.toNat ≤ r.length := by omega
          have hmle' : middle.toNat ≤ (c.partialSort r 0 middle r.length).length := by rw [hpl]; exact hmle
          have h7 := h6.trans (answer_reaches (k := k) middle.toNat _ middle.toNat 0 [] [] (by omega)
            (by simp only [List.length_append, hpl]; omega))
          simp only [List.drop_zero, List.nil_append, List.take_append_of_le_length hmle'] at h7
          exact h7

/-! ### goroutines -/

variable {calls : List (Nat × Call c)} {ctxs : Nat → Ctx c}

/-- Goroutines with different contexts: each one and its context are where they would be after some steps alone. -/
theorem thread_alone (hn : (calls.map Prod.fst).Nodup) (schedule : List Nat) :
    ((Searches.start ctxs calls).run schedule).threads.length = calls.length ∧
    ∀ n p, calls[n]? = some p → ∃ t, ((Searches.start ctxs calls).run schedule).threads[n]? = some t ∧
      t.call = p.2 ∧ t.ctx = p.1 ∧
      (t.task, ((Searches.start ctxs calls).run schedule).ctxs p.1) =
        p.2.next^[schedule.count n] (p.2.start, ctxs p.1) := by
  induction schedule using List.reverseRecOn with
  | nil =>
    refine ⟨by simp [Searches.run, Searches.start], fun n p hp => ⟨⟨p.2, p.1, p.2.start⟩, ?_, rfl, rfl, rfl⟩⟩
    show (calls.map _)[n]? = _
    rw [List.getElem?_map, hp]
    rfl
  | append_singleton l a ih =>
    have e : (Searches.start ctxs calls).run (l ++ [a]) = ((Searches.start ctxs calls).run l).step a := by
      simp [Searches.run, List.foldl_append]
    rw [e]
    generalize (Searches.start ctxs calls).run l = x at ih ⊢
    obtain ⟨hlen, ih⟩ := ih
    cases ha : x.threads[a]? with
    | none =>
      have hs : x.step a = x := by unfold Searches.step; rw [ha]
      rw [hs]
      refine ⟨hlen, fun n p hp => ?_⟩
      have : n ≠ a := by
        rintro rfl
        rw [List.getElem?_eq_none_iff, hlen] at ha
        rw [List.getElem?_eq_none ha] at hp
        cases hp
      obtain ⟨t, h1, h2, h3, h4⟩ := ih n p hp
      refine ⟨t, h1, h2, h3, ?_⟩
      rw [List.count_append, List.count_singleton, if_neg (by simpa using this.symm), Nat.add_zero]
      exact h4
    | some ta =>
      have hs : x.step a = ⟨fun i => if i = ta.ctx then (ta.call.step ta.task (x.ctxs ta.ctx)).2 else x.ctxs i,
          x.threads.set a { ta with task := (ta.call.step ta.task (x.ctxs ta.ctx)).1 }⟩ := by
        unfold Searches.step; rw [ha]
      have hal : a < x.threads.length := (List.getElem?_eq_some_iff.1 ha).1
      rw [hs]
      refine ⟨by simp [hlen], fun n p hp => ?_⟩
      obtain ⟨t, h1, h2, h3, h4⟩ := ih n p hp
      dsimp only
      by_cases hna : n = a
      · subst hna
        rw [h1] at ha
        cases ha
        refine ⟨_, List.getElem?_set_self hal, h2, h3, ?_⟩
        rw [List.count_append, List.count_singleton_self, Function.iterate_succ_apply', ← h4, if_pos h3.symm]
        show (_, _) = p.2.step _ _
        rw [h2, h3]
      · refine ⟨t, by rw [List.getElem?_set_ne (fun h => hna h.symm)]; exact h1, h2, h3, ?_⟩
        have hcnt : (l ++ [a]).count n = l.count n := by
          rw [List.count_append, List.count_singleton, if_neg (by simpa using fun h : a = n => hna h.symm), Nat.add_zero]
        rw [hcnt, ← h4, if_neg]
        -- different goroutines have different contexts
        intro hctx
        have han : a < calls.length := by omega
        obtain ⟨t', h1', _, h3', _⟩ := ih a calls[a] (List.getElem?_eq_getElem han)
        rw [h1'] at ha
        cases ha
        obtain ⟨hnl, rfl⟩ := List.getElem?_eq_some_iff.1 hp
        have := (List.Nodup.getElem_inj_iff hn (i := n) (j := a) (hi := by simpa using hnl) (hj := by simpa using han)).1
          (by simpa using hctx.trans h3')
        exact hna this

end ConcSearch
end Annoy
