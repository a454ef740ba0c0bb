import Verif.Proof.ConcAdd
import Verif.Props.Arena
/-!
# May several goroutines add items? (C115)
-/
namespace Annoy
namespace ConcAdd
open Arena
variable {c : Cfg}

/-- The program that adds items to the first index. -/
def addOps (adds : List (Nat × List c.N.V)) : List (Op c) := adds.map fun p => .add 0 p.1 p.2

theorem aloneRun_addOps (r : c.R.σ) (adds : List (Nat × List c.N.V)) : ∀ (n : Nat) (s : Idx c),
    aloneRun r 0 n (some s) (addOps adds) = (s.addAll adds).map some := by
  induction adds with
  | nil => intro n s; rfl
  | cons p adds ih =>
    intro n s
    simp only [addOps, List.map_cons, aloneRun, if_true, Idx.addAll]
    cases s.addItem p.1 p.2 with
    | error e => rfl
    | ok s' => exact ih n s'

theorem allocsOf_addOps (a hint : Nat) (adds : List (Nat × List c.N.V)) : allocsOf (.make a hint :: addOps adds) = [a] := by
  have : allocsOf (addOps adds) = [] := by
    induction adds with
    | nil => rfl
    | cons p adds ih => exact ih
  show a :: allocsOf (addOps adds) = [a]
  rw [this]

theorem run_append (ops ops' : List (Op c)) : ∀ {y y' : Sys}, y.run ops = .ok y' → y.run (ops ++ ops') = y'.run ops' := by
  induction ops with
  | nil => intro y y' h; cases h; rfl
  | cons o os ih =>
    intro y y' h
    unfold Sys.run at h
    rw [List.cons_append, Sys.run]
    cases ha : y.apply o with
    | error e => rw [ha] at h; cases h
    | ok y1 => rw [ha] at h; exact ih h

/-- An index that was only added to is the index of `Verif.Model.Index`. -/
theorem alone (hc : c.WF) (r : c.R.σ) {hint : Nat} {pre : List (Nat × List c.N.V)} {y : Sys}
    (h : Sys.empty.run (.make 0 hint :: addOps pre) = .ok y) :
    ∃ x s, y.idx = [x] ∧ (Idx.new c r hint).addAll pre = .ok s ∧ XSim y.mem x s := by
  obtain ⟨s, h1, h2⟩ := run_alone hc r 0 _ Sys.empty y (fun _ => 0) none
    ⟨fun _ _ h => (Option.some_ne_none _ h.symm).elim, fun _ h => absurd h List.not_mem_nil⟩
    (fun _ _ h => (Option.some_ne_none _ h.symm).elim) (Nat.zero_le _) (by
      intro j a h1 h2
      rw [allocsOf_addOps] at h1
      have h1 : ([0] : List Nat)[j]? = some a := h1
      cases j with
      | zero => rfl
      | succ j => simp at h1) h
  have h1 : aloneRun r 0 1 (some (Idx.new c r hint)) (addOps pre) = .ok s := h1
  rw [aloneRun_addOps] at h1
  have hlen : ∀ (adds : List (Nat × List c.N.V)) (y y' : Sys), y.run (addOps adds) = .ok y' → y'.idx.length = y.idx.length := by
    intro adds
    induction adds with
    | nil => intro y y' h; cases h; rfl
    | cons p adds ih =>
      intro y y' h
      have h : (match y.addItem c 0 p.1 p.2 with
        | .error e => Except.error e
        | .ok y => y.run (addOps adds)) = .ok y' := h
      cases ha : y.addItem c 0 p.1 p.2 with
      | error e => rw [ha] at h; cases h
      | ok y1 =>
        rw [ha] at h
        rw [ih _ _ h]
        simpa using congrArg List.length (addItem_allocs ha)
  have hl : y.idx.length = 1 := hlen pre _ _ (show (Sys.empty.make c 0 hint).run (addOps pre) = .ok y from h)
  cases ha : (Idx.new c r hint).addAll pre with
  | error e => rw [ha] at h1; cases h1
  | ok s0 =>
    rw [ha] at h1
    cases h1
    obtain ⟨x, hx, hs⟩ := h2
    refine ⟨x, s0, ?_, rfl, hs⟩
    cases hy : y.idx with
    | nil => rw [hy] at hl; cases hl
    | cons x0 xs =>
      rw [hy] at hl hx
      have : xs = [] := by simpa using hl
      subst this
      cases hx
      rfl

theorem lt_slotCount {V : Type} {adds : List (Nat × List V)} {p : Nat × List V} (h : p ∈ adds) : p.1 < slotCount adds := by
  induction adds with
  | nil => cases h
  | cons q adds ih =>
    simp only [slotCount, List.foldr_cons] at ih ⊢
    rcases List.mem_cons.1 h with rfl | h
    · omega
    · have := ih h; omega

/-- What the calls of `C115_apart_partial` need. -/
theorem ready (hc : c.WF) (r : c.R.σ) {hint : Nat} {pre : List (Nat × List c.N.V)} {y : Sys}
    (h : Sys.empty.run (.make 0 hint :: addOps pre) = .ok y) (hleg : LegalAdds c pre) {calls : List (List (Nat × List c.N.V))}
    (hcalls : ∀ l ∈ calls, ∀ q ∈ l, q.2.length = c.L.f ∧ ∃ p ∈ pre, q.1 ≤ p.1)
    (hd : ∀ (n m : Nat) (l l' : List (Nat × List c.N.V)), n ≠ m → calls[n]? = some l → calls[m]? = some l' → ∀ q ∈ l, ∀ q' ∈ l', q.1 ≠ q'.1) :
    ∃ x p, y.idx = [x] ∧ (calls.flatten ≠ [] → Ready ⟨y.mem, x⟩ p calls) := by
  obtain ⟨x, s, hy, hs, hx⟩ := alone hc r h
  have hL := hc.layout
  obtain ⟨s', e, hi, -⟩ := addAll_spec hc pre _ _ _ (Idx.ItemInv.new c hL r hint) hleg
  rw [hs] at e
  cases e
  have hfit : ∀ l ∈ calls, ∀ q ∈ l, c.L.Fits (q.1 + 1) ∧ q.1 < s.nItems := by
    intro l hl q hq
    obtain ⟨-, p, hp, hle⟩ := hcalls l hl q hq
    refine ⟨(hleg p hp).2.mono (by omega), ?_⟩
    rw [hi.nItems]
    have := lt_slotCount hp
    omega
  by_cases hne : calls.flatten = []
  · exact ⟨x, 0, hy, fun h => absurd hne h⟩
  obtain ⟨q0, hq0⟩ := List.exists_mem_of_ne_nil _ hne
  obtain ⟨l0, hl0, hq0⟩ := List.mem_flatten.1 hq0
  have hpos : 0 < s.nodesSize := by
    have := (hfit l0 hl0 q0 hq0).2
    have := hi.n_le
    rw [← hi.nItems] at this
    omega
  obtain ⟨p, hp, hal⟩ : ∃ p, x.ptr = some p ∧ y.mem.alloc x.alloc = some p := by
    rcases hx.ptr with ⟨-, e⟩ | ⟨p, e1, e2, -⟩
    · rw [hi.memOK.nodes hpos] at e; cases e
    · exact ⟨p, e1, e2⟩
  have hblock : s.alloc.block = y.mem.arena p := by
    have := hx.alloc
    unfold AllocSim at this
    rw [hal] at this
    exact this.2
  have haddr : ∀ l ∈ calls, ∀ q ∈ l, c.L.addr q.1 = q.1 * c.L.nodeSize := fun l hl q hq => (hfit l hl q hq).1.addr (by omega)
  refine ⟨x, p, hy, fun _ => ⟨hp, ?_, ?_⟩⟩
  · intro l hl q hq
    obtain ⟨h1, h2⟩ := hfit l hl q hq
    have h3 := hi.n_le
    rw [← hi.nItems] at h3
    have hlt : q.1 < s.nodesSize := by omega
    refine ⟨(hcalls l hl q hq).1, by rw [hx.nItems]; exact h2, ?_, ?_⟩
    · rw [hx.nodesSize, c.L.wrap_eq (h1.lt_range hL.nodeSize_pos)]; exact hlt
    · obtain ⟨g, -⟩ := hi.memOK.getNode hlt
      have := (Idx.getNode_ok g).2
      have e : s.bmem = y.mem.arena p := by
        unfold Idx.bmem
        rw [hi.memOK.nodes hpos]
        exact hblock
      rwa [e] at this
  · intro n m l l' hnm hl hl' z ⟨q, hq, hz⟩ ⟨q', hq', hz'⟩
    have hlm := List.mem_of_getElem? hl
    have hlm' := List.mem_of_getElem? hl'
    unfold InNode at hz hz'
    rw [haddr l hlm q hq] at hz
    rw [haddr l' hlm' q' hq'] at hz'
    have := Idx.node_ne (n := c.L.nodeSize) (k := z - q.1 * c.L.nodeSize) (hd n m l l' hnm hl hl' q hq q' hq') (by omega)
    omega

/-- The calls of a list, one after the other, when nothing has to grow. -/
theorem run_addOps {x : Index} {p : Nat} (hp : x.ptr = some p) : ∀ (l : List (Nat × List c.N.V)) (m : Mem),
    (∀ q ∈ l, q.2.length = c.L.f ∧ q.1 < x.nItems ∧ c.L.wrap (q.1 + 1) ≤ x.nodesSize ∧ c.L.addr q.1 + c.L.nodeSize ≤ (m.arena p).size) →
    Sys.run ⟨m, [x]⟩ (addOps l) = .ok ⟨m.write (some p) (putAll c l), [x]⟩ := by
  intro l
  induction l with
  | nil =>
    intro m _
    have : m.write (some p) (putAll c []) = m := write_id m (some p)
    rw [this]
    rfl
  | cons q l ih =>
    intro m h
    obtain ⟨h1, h2, h3, h4⟩ := h q List.mem_cons_self
    have e : Sys.addItem c ⟨m, [x]⟩ 0 q.1 q.2 = .ok ⟨m.write (some p) (putItem c (c.L.addr q.1) q.2), [x]⟩ := by
      unfold Sys.addItem
      dsimp only [List.getElem?_cons_zero]
      rw [if_neg (by simp [h1])]
      have ea : allocateSize c m x (c.L.wrap (q.1 + 1)) = (m, x) := by
        unfold allocateSize
        rw [if_neg (by omega)]
      rw [ea]
      dsimp only
      rw [hp]
      dsimp only
      rw [Idx.getNode_eq h4]
      dsimp only
      rw [if_neg (by omega)]
      rfl
    show (match Sys.addItem c ⟨m, [x]⟩ 0 q.1 q.2 with
      | .error e => Except.error e
      | .ok y => y.run (addOps l)) = _
    rw [e]
    dsimp only
    rw [ih _ (fun q' hq' => by rw [write_size]; exact h q' (List.mem_cons_of_mem _ hq')), write_write]
    rfl

/-- `GetItem` after the calls. -/
theorem getItem_of_run (hc : c.WF) (r : c.R.σ) {hint : Nat} {adds : List (Nat × List c.N.V)} {y : Sys}
    (h : Sys.empty.run (.make 0 hint :: addOps adds) = .ok y) (hleg : LegalAdds c adds) {i : Nat} {v : List c.N.V}
    (hv : lastAdded adds i = some v) : y.getItem c 0 i = .ok v := by
  obtain ⟨s, h1, h2⟩ := C67_own_builder_partial hc r h (k := 0) (a := 0) (by rw [allocsOf_addOps]; rfl) (by
    intro j hj
    rw [allocsOf_addOps] at hj
    cases j with
    | zero => rfl
    | succ j => simp at hj)
  have h1 : aloneRun r 0 1 (some (Idx.new c r hint)) (addOps adds) = .ok (some s) := h1
  rw [aloneRun_addOps] at h1
  have w : World := ⟨fun _ => none, fun _ => [], 0, fun _ => true⟩
  obtain ⟨s', g1, -, g2, -⟩ := C01_get_item hc r hint w adds hleg
  rw [g1] at h1
  cases h1
  rw [h2 w i, g2 i v hv]

/-- **C115**, what is left of it: items `pre` are there, each goroutine adds the items of one list, an item with the same or a higher index is
there already, and no index occurs in the lists of two goroutines.  Then whatever the schedule, no call panics; when all goroutines have returned, the
heap and the index are exactly as if one goroutine had made the calls list after list, and `GetItem` answers the vectors that were added last; and six
actions per call are enough.  (Missing: indexes above those that are there, where the index grows or its number of items changes, `C115_refuted`,
`C115_grow_refuted`.) -/
theorem C115_apart_partial (hc : c.WF) (r : c.R.σ) {hint : Nat} {pre : List (Nat × List c.N.V)} {y : Sys}
    (h : Sys.empty.run (.make 0 hint :: addOps pre) = .ok y) (hleg : LegalAdds c pre) {calls : List (List (Nat × List c.N.V))}
    (hcalls : ∀ l ∈ calls, ∀ q ∈ l, q.2.length = c.L.f ∧ ∃ p ∈ pre, q.1 ≤ p.1)
    (hd : ∀ (n m : Nat) (l l' : List (Nat × List c.N.V)), n ≠ m → calls[n]? = some l → calls[m]? = some l' → ∀ q ∈ l, ∀ q' ∈ l', q.1 ≠ q'.1) :
    ∃ x, y.idx = [x] ∧ ∀ schedule,
      (∀ t ∈ ((Adding.start ⟨y.mem, x⟩ calls).run schedule).threads, t.failed = none) ∧
      (((Adding.start ⟨y.mem, x⟩ calls).run schedule).Finished →
        y.run (addOps calls.flatten) = .ok ((Adding.start ⟨y.mem, x⟩ calls).run schedule).shared.sys ∧
        ∀ i v, lastAdded (pre ++ calls.flatten) i = some v →
          ((Adding.start ⟨y.mem, x⟩ calls).run schedule).shared.sys.getItem c 0 i = .ok v) ∧
      ((∀ n l, calls[n]? = some l → 6 * l.length ≤ schedule.count n) → ((Adding.start ⟨y.mem, x⟩ calls).run schedule).Finished) := by
  obtain ⟨x, p, hy, hr⟩ := ready hc r h hleg hcalls hd
  refine ⟨x, hy, fun schedule => ?_⟩
  -- nobody has anything to do
  by_cases hne : calls.flatten = []
  · have idle : ∀ sch, (Adding.start (c := c) ⟨y.mem, x⟩ calls).run sch = Adding.start ⟨y.mem, x⟩ calls := by
      have hnil : ∀ t ∈ (Adding.start (c := c) ⟨y.mem, x⟩ calls).threads, t.todo = [] ∧ t.failed = none := by
        intro t ht
        obtain ⟨l, hl, rfl⟩ := List.mem_map.1 ht
        exact ⟨by simpa using List.flatten_eq_nil_iff.1 hne l hl, rfl⟩
      intro sch
      induction sch with
      | nil => rfl
      | cons n sch ih =>
        have : (Adding.start (c := c) ⟨y.mem, x⟩ calls).step n = Adding.start ⟨y.mem, x⟩ calls := by
          unfold Adding.step
          cases ht : (Adding.start (c := c) ⟨y.mem, x⟩ calls).threads[n]? with
          | none => rfl
          | some t =>
            obtain ⟨h1, h2⟩ := hnil t (List.mem_of_getElem? ht)
            have e : t.step (Adding.start (c := c) ⟨y.mem, x⟩ calls).shared = (t, (Adding.start (c := c) ⟨y.mem, x⟩ calls).shared) := by
              unfold Thread.step; rw [h2, h1]
            dsimp only
            rw [e]
            dsimp only
            obtain ⟨hn, rfl⟩ := List.getElem?_eq_some_iff.1 ht
            rw [List.set_getElem_self hn]
        show ((Adding.start (c := c) ⟨y.mem, x⟩ calls).step n).run sch = _
        rw [this, ih]
    rw [idle]
    have fin : (Adding.start (c := c) ⟨y.mem, x⟩ calls).Finished := by
      intro t ht
      obtain ⟨l, hl, rfl⟩ := List.mem_map.1 ht
      exact ⟨by simpa using List.flatten_eq_nil_iff.1 hne l hl, rfl⟩
    have hsys : (Adding.start (c := c) ⟨y.mem, x⟩ calls).shared.sys = y := by
      show Sys.mk y.mem [x] = y
      rw [← hy]
    refine ⟨fun t ht => (fin t ht).2, fun _ => ⟨by rw [hsys, hne]; rfl, ?_⟩, fun _ => fin⟩
    intro i v hv
    rw [hne, List.append_nil] at hv
    rw [hsys]
    exact getItem_of_run hc r h hleg hv
  · have hr := hr hne
    obtain ⟨gs, hi⟩ := Inv.run hc hr schedule (Inv.start _ p calls)
    refine ⟨?_, ?_, ?_⟩
    · intro t ht
      obtain ⟨n, hn⟩ := List.mem_iff_getElem?.1 ht
      have hlt := (List.getElem?_eq_some_iff.1 hn).1
      rw [hi.len.2] at hlt
      exact (hi.on n _ t _ (List.getElem?_eq_getElem hlt) hn (List.getElem?_eq_getElem (by rw [hi.len.1]; exact hlt))).1
    · intro hf
      have hsh := hi.finished hf
      have hrun : y.run (addOps calls.flatten) = .ok ((Adding.start ⟨y.mem, x⟩ calls).run schedule).shared.sys := by
        rw [hsh]
        have hy' : y = ⟨y.mem, [x]⟩ := by rw [← hy]
        have := run_addOps (c := c) hr.ptr calls.flatten y.mem (by
          intro q hq
          obtain ⟨l, hl, hq⟩ := List.mem_flatten.1 hq
          exact hr.call l hl q hq)
        rw [← hy'] at this
        exact this
      refine ⟨hrun, fun i v hv => ?_⟩
      have hall : Sys.empty.run (.make 0 hint :: addOps (pre ++ calls.flatten)) = .ok ((Adding.start ⟨y.mem, x⟩ calls).run schedule).shared.sys := by
        have e : (Op.make 0 hint :: addOps (pre ++ calls.flatten) : List (Op c)) = (.make 0 hint :: addOps pre) ++ addOps calls.flatten := by
          simp [addOps]
        rw [e, run_append _ _ h, hrun]
      have hleg' : LegalAdds c (pre ++ calls.flatten) := by
        intro q hq
        rcases List.mem_append.1 hq with hq | hq
        · exact hleg q hq
        · obtain ⟨l, hl, hq⟩ := List.mem_flatten.1 hq
          obtain ⟨e1, p', hp', hle⟩ := hcalls l hl q hq
          exact ⟨e1, (hleg p' hp').2.mono (by omega)⟩
      exact getItem_of_run hc r hall hleg' hv
    · intro hcnt t ht
      obtain ⟨n, hn⟩ := List.mem_iff_getElem?.1 ht
      have hlt := (List.getElem?_eq_some_iff.1 hn).1
      rw [hi.len.2] at hlt
      have hl := List.getElem?_eq_getElem hlt
      have hst : (Adding.start (c := c) ⟨y.mem, x⟩ calls).threads[n]? = some ⟨calls[n], .test, none⟩ := by
        simp [Adding.start, hl]
      obtain ⟨t', e1, e2⟩ := Inv.through hc hr n schedule (Inv.start _ p calls) _ hst (by
        have := hcnt n _ hl
        dsimp only
        omega)
      rw [hn] at e1
      cases e1
      exact ⟨e2, (hi.on n _ t _ hl hn (List.getElem?_eq_getElem (by rw [hi.len.1]; exact hlt))).1⟩

/-- Items 0 to 3, then goroutines adding 4 and 5: nothing grows. -/
def four : List (Nat × List ieee32.V) :=
  [(0, [one32, zero32]), (1, [one32, one32]), (2, [zero32, one32]), (3, [one32, one32])]

/-- One goroutine adds item 4, the other one item 5. -/
def twoMore : List (List (Nat × List ieee32.V)) := [[(4, [one32, one32])], [(5, [zero32, one32])]]

/-- The first goroutine finds that it has to set the number of items; the second one makes its call; the first one goes on. -/
def overtaken : List Nat := [0, 0, 0, 0, 0, 0, 1, 1, 1, 1, 1, 1, 1, 0]

/-- Each of the two goroutines of the witnesses makes one call.  After a schedule all have returned, the number of items is `n`, and item `i` is `v`. -/
def endsWith (pre : List (Nat × List ieee32.V)) (calls : List (List (Nat × List ieee32.V))) (schedule : List Nat) (n i : Nat) (v : List ieee32.V) : Bool :=
  okWith (Sys.empty.run (c := angular32 4 2) (.make 0 0 :: addOps (c := angular32 4 2) pre)) fun y =>
    match y.idx with
    | [x] =>
      let z := (Adding.start (c := angular32 4 2) ⟨y.mem, x⟩ calls).run schedule
      z.threads.all (fun t => t.todo.isEmpty && t.failed.isNone) && decide (z.shared.x.nItems = n) &&
        okWith (z.shared.sys.getItem (angular32 4 2) 0 i) fun u => sameVec u v
    | _ => false

theorem endsWith_elim {pre : List (Nat × List ieee32.V)} {calls : List (List (Nat × List ieee32.V))} {schedule : List Nat} {n i : Nat}
    {v : List ieee32.V} (h : endsWith pre calls schedule n i v = true) :
    ∃ y x, Sys.empty.run (c := angular32 4 2) (.make 0 0 :: addOps (c := angular32 4 2) pre) = .ok y ∧ y.idx = [x] ∧
      ((Adding.start (c := angular32 4 2) ⟨y.mem, x⟩ calls).run schedule).Finished ∧
      ((Adding.start (c := angular32 4 2) ⟨y.mem, x⟩ calls).run schedule).shared.x.nItems = n ∧
      ((Adding.start (c := angular32 4 2) ⟨y.mem, x⟩ calls).run schedule).shared.sys.getItem (angular32 4 2) 0 i = .ok v := by
  obtain ⟨y, h1, h⟩ := okWith_elim h
  split at h
  · next x hx =>
    dsimp only at h
    simp only [Bool.and_eq_true, List.all_eq_true, decide_eq_true_eq] at h
    obtain ⟨⟨h2, h3⟩, h4⟩ := h
    obtain ⟨u, h5, h6⟩ := okWith_elim h4
    refine ⟨y, x, h1, hx, fun t ht => ?_, h3, h5.trans (congrArg Except.ok (sameVec_elim h6))⟩
    obtain ⟨e1, e2⟩ := h2 t ht
    exact ⟨List.isEmpty_iff.1 e1, Option.isNone_iff_eq_none.1 e2⟩
  · cases h

/-- **C115 as stated is false.**  Four items are there, one goroutine adds item 4, another one item 5.  Both find their index above the number of items,
the second one sets it to 6 and returns, then the first one sets it to 5.  Both calls have returned, and the index has five items: item 5 will be in no
tree.  One after the other the same calls leave six items. -/
theorem C115_refuted : (∃ y x, Sys.empty.run (c := angular32 4 2) (.make 0 0 :: addOps (c := angular32 4 2) four) = .ok y ∧ y.idx = [x] ∧
      ((Adding.start (c := angular32 4 2) ⟨y.mem, x⟩ twoMore).run
        overtaken).Finished ∧
      ((Adding.start (c := angular32 4 2) ⟨y.mem, x⟩ twoMore).run
        overtaken).shared.x.nItems = 5) ∧
    ∃ y x, Sys.empty.run (c := angular32 4 2)
      (.make 0 0 :: addOps (c := angular32 4 2) (four ++ twoMore.flatten)) = .ok y ∧ y.idx = [x] ∧ x.nItems = 6 := by
  constructor
  · obtain ⟨y, x, h1, h2, h3, h4, -⟩ := endsWith_elim (pre := four) (calls := twoMore)
      (schedule := overtaken) (n := 5) (i := 5) (v := [zero32, one32]) (by decide +kernel)
    exact ⟨y, x, h1, h2, h3, h4⟩
  · obtain ⟨y, x, h1, h2, -, h4, -⟩ := endsWith_elim (pre := four ++ twoMore.flatten) (calls := [])
      (schedule := []) (n := 6) (i := 5) (v := [zero32, one32]) (by decide +kernel)
    exact ⟨y, x, h1, h2, h4⟩

/-- **C115 as stated is false**, second reason: growing.  On a fresh index one goroutine adds item 0 and another one item 1.  The second one copies the
memory before the first one has written its item into it, and makes the copy the memory of the index afterwards: all calls have returned, and item 0
is (0, 0). -/
theorem C115_grow_refuted : ∃ y x, Sys.empty.run (c := angular32 4 2) (.make 0 0 :: addOps (c := angular32 4 2) []) = .ok y ∧ y.idx = [x] ∧
      ((Adding.start (c := angular32 4 2) ⟨y.mem, x⟩ [[(0, [one32, one32])], [(1, [zero32, one32])]]).run
        [0, 0, 0, 0, 1, 1, 0, 0, 0, 0, 0, 0, 1, 1, 1, 1, 1, 1, 1, 1]).Finished ∧
      ((Adding.start (c := angular32 4 2) ⟨y.mem, x⟩ [[(0, [one32, one32])], [(1, [zero32, one32])]]).run
        [0, 0, 0, 0, 1, 1, 0, 0, 0, 0, 0, 0, 1, 1, 1, 1, 1, 1, 1, 1]).shared.x.nItems = 2 ∧
      ((Adding.start (c := angular32 4 2) ⟨y.mem, x⟩ [[(0, [one32, one32])], [(1, [zero32, one32])]]).run
        [0, 0, 0, 0, 1, 1, 0, 0, 0, 0, 0, 0, 1, 1, 1, 1, 1, 1, 1, 1]).shared.sys.getItem (angular32 4 2) 0 0 = .ok [zero32, zero32] :=
  endsWith_elim (by decide +kernel)

/-- The hypotheses of `C115_apart_partial`: items 0 to 3 are there, two goroutines give items 0 and 2, and item 1, new vectors; after a schedule that
alternates between them both have returned. -/
example : (angular32 4 2).WF ∧ LegalAdds (angular32 4 2) four ∧
    (∀ l ∈ ([[(0, [zero32, one32]), (2, [one32, zero32])], [(1, [one32, one32])]] : List (List (Nat × List ieee32.V))), ∀ q ∈ l,
      q.2.length = (angular32 4 2).L.f ∧ ∃ p ∈ four, q.1 ≤ p.1) ∧
    (∀ (n m : Nat) (l l' : List (Nat × List ieee32.V)), n ≠ m →
      ([[(0, [zero32, one32]), (2, [one32, zero32])], [(1, [one32, one32])]] : List (List (Nat × List ieee32.V)))[n]? = some l →
      ([[(0, [zero32, one32]), (2, [one32, zero32])], [(1, [one32, one32])]] : List (List (Nat × List ieee32.V)))[m]? = some l' →
      ∀ q ∈ l, ∀ q' ∈ l', q.1 ≠ q'.1) ∧
    ∃ y x, Sys.empty.run (c := angular32 4 2) (.make 0 0 :: addOps (c := angular32 4 2) four) = .ok y ∧ y.idx = [x] ∧
      ((Adding.start (c := angular32 4 2) ⟨y.mem, x⟩ [[(0, [zero32, one32]), (2, [one32, zero32])], [(1, [one32, one32])]]).run
        [0, 1, 0, 1, 0, 1, 0, 1, 0, 1, 0, 1, 0, 0, 0, 0, 0, 0]).Finished ∧
      ((Adding.start (c := angular32 4 2) ⟨y.mem, x⟩ [[(0, [zero32, one32]), (2, [one32, zero32])], [(1, [one32, one32])]]).run
        [0, 1, 0, 1, 0, 1, 0, 1, 0, 1, 0, 1, 0, 0, 0, 0, 0, 0]).shared.x.nItems = 4 ∧
      ((Adding.start (c := angular32 4 2) ⟨y.mem, x⟩ [[(0, [zero32, one32]), (2, [one32, zero32])], [(1, [one32, one32])]]).run
        [0, 1, 0, 1, 0, 1, 0, 1, 0, 1, 0, 1, 0, 0, 0, 0, 0, 0]).shared.sys.getItem (angular32 4 2) 0 2 = .ok [one32, zero32] := by
  refine ⟨angular32_wf (Or.inl rfl) (by decide), legalAdds_of (by decide +kernel), ?_, ?_, endsWith_elim (by decide +kernel)⟩
  · intro l hl q hq
    simp only [List.mem_cons, List.not_mem_nil, or_false] at hl
    rcases hl with rfl | rfl
    all_goals
      simp only [List.mem_cons, List.not_mem_nil, or_false] at hq
    · rcases hq with rfl | rfl
      · exact ⟨rfl, (3, [one32, one32]), by simp [four], by decide⟩
      · exact ⟨rfl, (3, [one32, one32]), by simp [four], by decide⟩
    · subst hq
      exact ⟨rfl, (3, [one32, one32]), by simp [four], by decide⟩
  · intro n m l l' hnm hl hl' q hq q' hq'
    rcases n with _ | _ | n <;> rcases m with _ | _ | m <;> simp at hl hl' hnm
    · subst hl hl'
      simp only [List.mem_cons, List.not_mem_nil, or_false] at hq hq'
      subst hq'
      rcases hq with rfl | rfl <;> decide
    · subst hl hl'
      simp only [List.mem_cons, List.not_mem_nil, or_false] at hq hq'
      subst hq
      rcases hq' with rfl | rfl <;> decide

/-- One action of a goroutine, with what is shared. -/
def act (p : Thread c × Shared) : Thread c × Shared := p.1.step p.2

theorem act_item (hc : c.WF) (i : Nat) (v : List c.N.V) (rest : List (Nat × List c.N.V)) (s : Shared) :
    match s.sys.addItem c 0 i v with
    | .ok y => ∃ k s', y = s'.sys ∧ act^[k] (⟨(i, v) :: rest, .test, none⟩, s) = (⟨rest, .test, none⟩, s')
    | .error e => ∃ k t' s', t'.failed = some e ∧ act^[k] (⟨(i, v) :: rest, .test, none⟩, s) = (t', s') := by
  unfold Sys.addItem
  have h0 : s.sys.idx[0]? = some s.x := rfl
  simp only [h0]
  by_cases hv : v.length ≠ c.L.f
  · simp only [if_pos hv]
    refine ⟨1, ⟨(i, v) :: rest, .test, some (.panic "Vector length mismatch")⟩, s, rfl, ?_⟩
    simp only [Function.iterate_one, act, Thread.step, if_pos hv]
  · simp only [if_neg hv]
    -- to the mapping of the node
    have hm : ∃ k, act^[k] (⟨(i, v) :: rest, .test, none⟩, s) =
        (⟨(i, v) :: rest, .map, none⟩, ⟨(allocateSize c s.sys.mem s.x (c.L.wrap (i + 1))).1, (allocateSize c s.sys.mem s.x (c.L.wrap (i + 1))).2⟩) := by
      unfold allocateSize
      by_cases hg : c.L.wrap (i + 1) > s.x.nodesSize
      · simp only [if_pos hg]
        refine ⟨4, ?_⟩
        simp only [Function.iterate_succ, Function.iterate_zero, Function.comp_apply, act, Thread.step, if_neg hv, if_pos hg, id_eq]
        rfl
      · simp only [if_neg hg]
        refine ⟨1, ?_⟩
        simp only [Function.iterate_one, act, Thread.step, if_neg hv, if_neg hg]
        rfl
    obtain ⟨k, hk⟩ := hm
    generalize allocateSize c s.sys.mem s.x (c.L.wrap (i + 1)) = q at hk ⊢
    obtain ⟨m, x⟩ := q
    simp only at hk ⊢
    cases hp : x.ptr with
    | none =>
      simp only
      have hg : getNode c.L ⟨0, zeros⟩ i = .error .oob := by
        have := hc.layout.nodeSize_pos
        unfold getNode
        exact if_neg (by dsimp only; omega)
      rw [hg]
      refine ⟨1 + k, ⟨(i, v) :: rest, .map, some .oob⟩, ⟨m, x⟩, rfl, ?_⟩
      rw [Function.iterate_add_apply, hk]
      simp only [Function.iterate_one, act, Thread.step, hp]
    | some p =>
      simp only
      cases hn : getNode c.L (m.arena p) i with
      | error e =>
        refine ⟨1 + k, ⟨(i, v) :: rest, .map, some e⟩, ⟨m, x⟩, rfl, ?_⟩
        rw [Function.iterate_add_apply, hk]
        simp only [Function.iterate_one, act, Thread.step, hp, hn]
      | ok a =>
        simp only
        have hw : (m.write (some p) fun b => c.D.initNode (Node.setVec c.L c.C (Node.setNDesc c.L b a 1) a v) a) =
            ((m.write (some p) fun b => Node.setNDesc c.L b a 1).write (some p) fun b => Node.setVec c.L c.C b a v).write (some p) fun b => c.D.initNode b a := by
          rw [write_write, write_write]
        by_cases hi : i ≥ x.nItems
        · simp only [if_pos hi]
          refine ⟨6 + k, ⟨m.write (some p) fun b => c.D.initNode (Node.setVec c.L c.C (Node.setNDesc c.L b a 1) a v) a,
            { x with nItems := c.L.wrap (i + 1) }⟩, ?_, ?_⟩
          · rw [← hp]
            rfl
          · rw [Function.iterate_add_apply, hk, hw]
            simp only [Function.iterate_succ, Function.iterate_zero, Function.comp_apply, act, Thread.step, hp, hn, if_pos hi, id_eq]
        · simp only [if_neg hi]
          refine ⟨5 + k, ⟨m.write (some p) fun b => c.D.initNode (Node.setVec c.L c.C (Node.setNDesc c.L b a 1) a v) a, x⟩, rfl, ?_⟩
          rw [Function.iterate_add_apply, hk, hw]
          simp only [Function.iterate_succ, Function.iterate_zero, Function.comp_apply, act, Thread.step, hp, hn, if_neg hi, id_eq]

theorem act_items (hc : c.WF) : ∀ (l : List (Nat × List c.N.V)) (s : Shared),
    match s.sys.run (addOps l) with
    | .ok y => ∃ k s', y = s'.sys ∧ act^[k] (⟨l, .test, none⟩, s) = (⟨[], .test, none⟩, s')
    | .error e => ∃ k t' s', t'.failed = some e ∧ act^[k] (⟨l, .test, none⟩, s) = (t', s') := by
  intro l
  induction l with
  | nil => exact fun s => ⟨0, s, rfl, rfl⟩
  | cons p l ih =>
    intro s
    obtain ⟨i, v⟩ := p
    have h1 := act_item hc i v l s
    have e : s.sys.run (addOps ((i, v) :: l)) = match s.sys.addItem c 0 i v with | .error e => .error e | .ok y => y.run (addOps l) := rfl
    rw [e]
    cases ha : s.sys.addItem c 0 i v with
    | error e =>
      rw [ha] at h1
      exact h1
    | ok y =>
      rw [ha] at h1
      obtain ⟨k, s', rfl, hk⟩ := h1
      have h2 := ih s'
      dsimp only
      cases hr : s'.sys.run (addOps l) with
      | error e =>
        rw [hr] at h2
        obtain ⟨k', t', s'', h3, h4⟩ := h2
        exact ⟨k' + k, t', s'', h3, by rw [Function.iterate_add_apply, hk, h4]⟩
      | ok y =>
        rw [hr] at h2
        obtain ⟨k', s'', h3, h4⟩ := h2
        exact ⟨k' + k, s'', h3, by rw [Function.iterate_add_apply, hk, h4]⟩

theorem act_stopped {p : Thread c × Shared} (h : p.1.todo = [] ∨ p.1.failed.isSome) (n : Nat) : act^[n] p = p := by
  refine Function.iterate_fixed ?_ n
  obtain ⟨⟨todo, task, failed⟩, s⟩ := p
  unfold act Thread.step
  cases failed with
  | some e => rfl
  | none =>
    rcases h with h | h
    · dsimp only at h; subst h; rfl
    · cases h

theorem run_one (t : Thread c) (s : Shared) (n : Nat) :
    (Adding.mk s [t]).run (List.replicate n 0) = ⟨(act^[n] (t, s)).2, [(act^[n] (t, s)).1]⟩ := by
  unfold Adding.run
  induction n generalizing t s with
  | zero => rfl
  | succ n ih =>
    rw [List.replicate_succ, List.foldl_cons, Function.iterate_succ_apply]
    exact ih _ _

/-- **C115**, one goroutine: alone, the actions of `AddItem` calls, one after the other, do what the calls do in sequence, whatever the calls are: growth of the
memory included, and the calls stop with the panic they stop with in sequence. -/
theorem C115_alone (hc : c.WF) (s : Shared) (l : List (Nat × List c.N.V)) :
    ∃ N, ∀ n, N ≤ n →
      match s.sys.run (addOps l) with
      | .ok y => ((Adding.start s [l]).run (List.replicate n 0)).Finished ∧ ((Adding.start s [l]).run (List.replicate n 0)).shared.sys = y
      | .error e => ∃ t, ((Adding.start s [l]).run (List.replicate n 0)).threads = [t] ∧ t.failed = some e := by
  have h := act_items hc l s
  have hs : Adding.start s [l] = ⟨s, [⟨l, .test, none⟩]⟩ := rfl
  rw [hs]
  cases hr : s.sys.run (addOps l) with
  | ok y =>
    rw [hr] at h
    obtain ⟨k, s', rfl, hk⟩ := h
    refine ⟨k, fun n hn => ?_⟩
    obtain ⟨d, rfl⟩ := Nat.exists_eq_add_of_le hn
    rw [run_one, Nat.add_comm, Function.iterate_add_apply, hk, act_stopped (Or.inl rfl)]
    refine ⟨fun t ht => ?_, rfl⟩
    rw [List.mem_singleton.1 ht]
    exact ⟨rfl, rfl⟩
  | error e =>
    rw [hr] at h
    obtain ⟨k, t', s', ht, hk⟩ := h
    refine ⟨k, fun n hn => ?_⟩
    obtain ⟨d, rfl⟩ := Nat.exists_eq_add_of_le hn
    rw [run_one, Nat.add_comm, Function.iterate_add_apply, hk, act_stopped (Or.inr (by rw [ht]; rfl))]
    exact ⟨t', rfl, ht⟩

/-- A new index: two calls grow the memory twice and succeed; a call with a short vector after them panics. -/
example : (∃ y, (Shared.sys ⟨Sys.empty.mem, ⟨0, none, 0, 0⟩⟩).run (addOps (c := angular32 4 2) (four.take 2)) = .ok y) ∧
    (Shared.sys ⟨Sys.empty.mem, ⟨0, none, 0, 0⟩⟩).run (addOps (c := angular32 4 2) (four.take 2 ++ [(2, [one32])])) =
      .error (.panic "Vector length mismatch") :=
  ⟨⟨_, rfl⟩, rfl⟩

end ConcAdd
end Annoy
