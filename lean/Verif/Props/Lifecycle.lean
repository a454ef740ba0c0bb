import Verif.Model.Imperative
import Verif.Props.Items
/-!
# C03, C15, C36, C37: calls in the wrong state
-/
set_option linter.unusedSimpArgs false
namespace Annoy
namespace Stmt
variable {c : Cfg}

/-! Running the statements. -/

theorem run_pure {α : Type} (a : α) (s : Sys c) : EStateM.run (pure a : Stmt c α) s = .ok a s := rfl
theorem run_throw {α : Type} (e : Err) (s : Sys c) : EStateM.run (throw e : Stmt c α) s = .error e s := rfl
theorem run_get (s : Sys c) : EStateM.run (get : Stmt c (Sys c)) s = .ok s s := rfl
theorem run_upd (f : Idx c → Idx c) (s : Sys c) : EStateM.run (upd f) s = .ok () { s with idx := f s.idx } := rfl
theorem run_modify (f : Sys c → Sys c) (s : Sys c) :
    EStateM.run (modify f : Stmt c Unit) s = .ok () (f s) := rfl
theorem run_bind {α β : Type} (x : Stmt c α) (f : α → Stmt c β) (s : Sys c) :
    EStateM.run (x >>= f) s = match EStateM.run x s with
      | .ok a s => EStateM.run (f a) s
      | .error e s => .error e s := by
  show EStateM.bind x f s = _
  unfold EStateM.bind EStateM.run
  cases x s <;> rfl
theorem run_lift_ok {α : Type} (a : α) (s : Sys c) : EStateM.run (lift (.ok a) : Stmt c α) s = .ok a s := rfl
theorem run_lift_error {α : Type} (e : Err) (s : Sys c) :
    EStateM.run (lift (.error e) : Stmt c α) s = .error e s := rfl

theorem eb_ok {α β : Type} (a : α) (f : α → Except Err β) : (Except.ok a >>= f) = f a := rfl
theorem eb_error {α β : Type} (e : Err) (f : α → Except Err β) : ((Except.error e : Except Err α) >>= f) = .error e := rfl

theorem addItem_run (i : Nat) (v : List c.N.V) (s : Sys c) :
    (addItem i v).run s =
      if s.idx.loaded then .error (.panic "Can't add items to a loaded index") s
      else if v.length ≠ c.L.f then .error (.panic "Vector length mismatch") s
      else match s.idx.addItem i v with
        | .ok s' => .ok () { s with idx := s' }
        | .error e => .error e { s with idx := s.idx.allocateSize (c.L.wrap (i + 1)) } := by
  unfold addItem
  by_cases h1 : s.idx.loaded = true
  · simp [run_bind, run_get, run_throw, h1]
  · by_cases h2 : v.length ≠ c.L.f
    · simp [run_bind, run_get, run_throw, run_pure, h1, h2]
    · rw [if_neg h1, if_neg h2]
      have e : s.idx.addItem i v = (do
          let s := s.idx.allocateSize (c.L.wrap (i + 1))
          let a ← getNode c.L s.bmem i
          let s := s.write fun b => c.D.initNode (Node.setVec c.L c.C (Node.setNDesc c.L b a 1) a v) a
          .ok (if i ≥ s.nItems then { s with nItems := c.L.wrap (i + 1) } else s)) := by
        unfold Idx.addItem; rw [if_neg h1, if_neg h2]
      rw [e]
      cases hg : getNode c.L (s.idx.allocateSize (c.L.wrap (i + 1))).bmem i with
      | error e => simp [run_bind, run_get, run_pure, run_upd, run_lift_error, h1, h2, hg, eb_error]
      | ok a =>
        by_cases h3 : i ≥ (s.idx.allocateSize (c.L.wrap (i + 1))).nItems <;>
        simp [run_bind, run_get, run_pure, run_upd, run_lift_ok, h1, h2, h3, hg, eb_ok, Idx.write]

/-- `Build`: the two checks come before anything else; behind them the result is that of `Idx.build`. -/
theorem build_run (junk : Idx c → Idx c) (rf tf lf : Nat) (t : Int) (s : Sys c) :
    (build junk rf tf lf t).run s =
      if s.idx.loaded then .error (.panic "Can't build a loaded index") s
      else if s.idx.built then .error (.panic "Index already built") s
      else match s.idx.build rf tf lf t with
        | .ok s' => .ok () { s with idx := s' }
        | .error e =>
          let s1 : Idx c := s.idx.write fun b => c.D.preProcess b s.idx.nItems
          .error e { s with idx := { junk { s1 with nNodes := s1.nItems } with loaded := false } } := by
  unfold build
  by_cases h1 : s.idx.loaded = true
  · simp [run_bind, run_get, run_throw, h1]
  · by_cases h2 : s.idx.built = true
    · simp [run_bind, run_get, run_throw, run_pure, h1, h2]
    · rw [if_neg h1, if_neg h2]
      have e : s.idx.build rf tf lf t = (do
          let s1 : Idx c := s.idx.write fun b => c.D.preProcess b s.idx.nItems
          Idx.threadBuild rf tf lf t 0 { s1 with nNodes := s1.nItems } >>= Idx.buildFinish) := by
        unfold Idx.build Idx.buildStart; rw [if_neg h1, if_neg h2]; rfl
      rw [e]
      generalize hx : ((Idx.threadBuild rf tf lf t 0 { (s.idx.write fun b => c.D.preProcess b s.idx.nItems) with
          nNodes := (s.idx.write fun b => c.D.preProcess b s.idx.nItems).nItems }) >>= Idx.buildFinish) = x
      cases x <;> simp [run_bind, run_get, run_pure, run_upd, run_throw, h1, h2, hx]
      simp [Idx.write, h1]

theorem close_run (s : Sys c) : (close : Stmt c Unit).run s = .ok () { s with idx := s.idx.close } := rfl

theorem scan_run (m : Block) (fuel : Nat) : ∀ (i : Nat) (md : Option Nat) (s : Sys c),
    (∀ rs md', Idx.scanRoots c m fuel i md = .ok (rs, md') → (scan m fuel i md).run s
      = .ok md' { s with idx := { s.idx with roots := s.idx.roots ++ rs } }) ∧
    (∀ e, Idx.scanRoots c m fuel i md = .error e → ∃ rs, (scan m fuel i md).run s
      = .error e { s with idx := { s.idx with roots := rs } }) := by
  induction fuel with
  | zero => intro i md s; exact ⟨fun rs md' h => (by cases h), fun e h => ⟨s.idx.roots, by cases h; rfl⟩⟩
  | succ fuel ih =>
    intro i md s
    unfold Idx.scanRoots scan
    cases hg : getNode c.L m i with
    | error e =>
      refine ⟨fun rs md' h => (by simp [eb_error] at h), fun e' h => ⟨s.idx.roots, ?_⟩⟩
      simp [eb_error] at h; subst h
      simp [run_bind, run_lift_error]
    | ok a =>
      simp only [eb_ok, run_bind, run_lift_ok]
      by_cases hk : md = none ∨ md = some (Node.nDesc c.L m.get a)
      · simp only [if_pos hk, run_bind, run_upd]
        obtain ⟨i1, i2⟩ := ih (if i = 0 then c.L.range - 1 else i - 1) (some (Node.nDesc c.L m.get a))
          { s with idx := { s.idx with roots := s.idx.roots ++ [i] } }
        constructor
        · intro rs md' h
          cases hr : Idx.scanRoots c m fuel (if i = 0 then c.L.range - 1 else i - 1) (some (Node.nDesc c.L m.get a)) with
          | error e => rw [hr] at h; simp [eb_error] at h
          | ok p =>
            rw [hr] at h; simp only [eb_ok, Except.ok.injEq, Prod.mk.injEq] at h
            obtain ⟨rfl, rfl⟩ := h
            rw [i1 p.1 p.2 hr]
            simp
        · intro e h
          cases hr : Idx.scanRoots c m fuel (if i = 0 then c.L.range - 1 else i - 1) (some (Node.nDesc c.L m.get a)) with
          | error e' =>
            rw [hr] at h; simp [eb_error] at h; subst h
            obtain ⟨rs, h⟩ := i2 e' hr
            exact ⟨rs, h⟩
          | ok p => rw [hr] at h; simp [eb_ok] at h
      · simp only [if_neg hk, run_pure]
        constructor
        · intro rs md' h
          simp at h; obtain ⟨rfl, rfl⟩ := h; simp
        · intro e h; cases h

/-- `Load` agrees with `Idx.load`; if it panics, the flags `built` and `loaded` are either what `Close` leaves
or both set. -/
theorem load_run (bk : Backend) (path : String) (s : Sys c) :
    (∀ e s', s.idx.load bk s.w path = .ok (e, s') → (load bk path).run s = .ok e { s with idx := s' }) ∧
    (∀ e, s.idx.load bk s.w path = .error e → ∃ s', (load bk path).run s = .error e { s with idx := s' } ∧
      ((s'.built = s.idx.built ∧ s'.loaded = false) ∨ (s'.built = true ∧ s'.loaded = true))) := by
  unfold Idx.load load
  simp only [run_bind, close_run, run_get]
  cases ho : openIndex bk s.w path with
  | error e =>
    simp only [eb_error, run_lift_error]
    refine ⟨fun e s' h => (by cases h), ?_⟩
    intro e' h; cases h
    exact ⟨_, rfl, Or.inl ⟨rfl, rfl⟩⟩
  | ok o =>
    simp only [eb_ok, run_lift_ok]
    cases o with
    | none =>
      refine ⟨?_, fun e h => (by cases h)⟩
      intro e s' h; simp at h; obtain ⟨rfl, rfl⟩ := h; rfl
    | some h =>
      by_cases hm : h.size % c.L.nodeSize ≠ 0
      · simp only [run_bind, run_upd, if_pos hm, close_run, run_pure]
        refine ⟨?_, fun e h => (by cases h)⟩
        intro e s' h; simp only [Except.ok.injEq, Prod.mk.injEq] at h; obtain ⟨rfl, rfl⟩ := h; rfl
      · simp only [run_bind, run_upd, if_neg hm, run_pure, run_get]
        set m := h.block s.w with hmdef
        set n := c.L.wrap h.size / c.L.nodeSize with hn
        generalize hi0 : (if n = 0 then c.L.range - 1 else n - 1) = i0
        obtain ⟨i1, i2⟩ := scan_run m (n + 2) i0 none (c := c)
          { s with idx := { s.idx.close with indexMemory := some h, nodes := .file h, roots := [], nNodes := n } }
        cases hs : Idx.scanRoots c m (n + 2) i0 none with
        | error e =>
          simp only [eb_error]
          refine ⟨fun e s' h => (by cases h), ?_⟩
          intro e' h; cases h
          obtain ⟨rs, h'⟩ := i2 e hs
          rw [h']
          exact ⟨_, rfl, Or.inl ⟨rfl, rfl⟩⟩
        | ok p =>
          obtain ⟨rs, md⟩ := p
          rw [i1 rs md hs]
          simp only [eb_ok, List.nil_append]
          cases hd : Idx.dropDup c m rs with
          | error e =>
            simp only [eb_error, run_lift_error]
            refine ⟨fun e s' h => (by cases h), ?_⟩
            intro e' h; cases h
            exact ⟨_, rfl, Or.inl ⟨rfl, rfl⟩⟩
          | ok rs' =>
            simp only [eb_ok, run_lift_ok, run_upd]
            cases hk : Idx.countNNS c m (md.getD 0) n with
            | error e =>
              simp only [eb_error, run_lift_error]
              refine ⟨fun e s' h => (by cases h), ?_⟩
              intro e' h; cases h
              exact ⟨_, rfl, Or.inr ⟨rfl, rfl⟩⟩
            | ok k =>
              simp only [eb_ok, run_lift_ok, run_upd, run_pure]
              refine ⟨?_, fun e h => (by cases h)⟩
              intro e s' h; simp only [Except.ok.injEq, Prod.mk.injEq] at h; obtain ⟨rfl, rfl⟩ := h; rfl

/-- `Save` agrees with `Idx.save`. -/
theorem save_run (bk : Backend) (path : String) (s : Sys c) :
    (∀ e s' w', s.idx.save bk s.w path = .ok (e, s', w') → (save bk path).run s = .ok e ⟨s', w'⟩) ∧
    (∀ e, s.idx.save bk s.w path = .error e → ∃ s', (save bk path).run s = .error e s' ∧
      s.idx.built = true ∧ s'.idx.built = true) := by
  unfold Idx.save save
  by_cases hb : s.idx.built = false
  · simp only [run_bind, run_get, if_pos hb, run_pure]
    refine ⟨?_, fun e h => (by cases h)⟩
    intro e s' w' h; simp only [Except.ok.injEq, Prod.mk.injEq] at h; obtain ⟨rfl, rfl, rfl⟩ := h; rfl
  · have hb' : s.idx.built = true := by simpa using hb
    simp only [run_bind, run_get, if_neg hb]
    cases hcr : s.w.create path with
    | none =>
      simp only [run_pure]
      refine ⟨?_, fun e h => (by cases h)⟩
      intro e s' w' h; simp only [Except.ok.injEq, Prod.mk.injEq] at h; obtain ⟨rfl, rfl, rfl⟩ := h; rfl
    | some p =>
      obtain ⟨inode, w⟩ := p
      simp only [run_bind, run_modify, run_get]
      cases hsb : s.idx.saveBytes w with
      | error e =>
        simp only [eb_error, run_lift_error]
        refine ⟨fun e s' w' h => (by cases h), ?_⟩
        intro e' h; cases h
        exact ⟨_, rfl, hb', hb'⟩
      | ok o =>
        simp only [eb_ok, run_lift_ok]
        cases o with
        | none =>
          simp only [run_pure]
          refine ⟨?_, fun e h => (by cases h)⟩
          intro e s' w' h; simp only [Except.ok.injEq, Prod.mk.injEq] at h; obtain ⟨rfl, rfl, rfl⟩ := h; rfl
        | some bytes =>
          simp only [run_bind, run_modify]
          obtain ⟨l1, l2⟩ := load_run bk path (c := c) ⟨s.idx, w.write inode bytes⟩
          cases hl : s.idx.load bk (w.write inode bytes) path with
          | error e =>
            simp only [eb_error]
            refine ⟨fun e s' w' h => (by cases h), ?_⟩
            intro e' h; cases h
            obtain ⟨s', h1, h2⟩ := l2 e hl
            refine ⟨_, h1, hb', ?_⟩
            rcases h2 with h2 | h2
            · exact h2.1.trans hb'
            · exact h2.1
          | ok p =>
            simp only [eb_ok]
            refine ⟨?_, fun e h => (by cases h)⟩
            intro e s' w' h; simp only [Except.ok.injEq, Prod.mk.injEq] at h; obtain ⟨rfl, rfl, rfl⟩ := h
            exact l1 p.1 p.2 hl

/-- `Load` never clears `built`. -/
theorem load_built {bk : Backend} {w : World} {s s' : Idx c} {path : String} {e : GoErr}
    (h : s.load bk w path = .ok (e, s')) : s'.built = true ∨ s'.built = s.built := by
  unfold Idx.load at h
  cases ho : openIndex bk w path with
  | error e => rw [ho] at h; simp [eb_error] at h
  | ok o =>
    rw [ho] at h
    simp only [eb_ok] at h
    cases o with
    | none => simp only [Except.ok.injEq, Prod.mk.injEq] at h; rw [← h.2]; right; rfl
    | some hd =>
      simp only at h
      split at h
      · simp only [Except.ok.injEq, Prod.mk.injEq] at h; rw [← h.2]; right; rfl
      · cases h1 : Idx.scanRoots c (hd.block w) (c.L.wrap hd.size / c.L.nodeSize + 2)
          (if c.L.wrap hd.size / c.L.nodeSize = 0 then c.L.range - 1 else c.L.wrap hd.size / c.L.nodeSize - 1) none with
        | error e => rw [h1] at h; simp [eb_error] at h
        | ok p =>
          rw [h1] at h; simp only [eb_ok] at h
          cases h2 : Idx.dropDup c (hd.block w) p.1 with
          | error e => rw [h2] at h; simp [eb_error] at h
          | ok rs =>
            rw [h2] at h; simp only [eb_ok] at h
            cases h3 : Idx.countNNS c (hd.block w) (p.2.getD 0) (c.L.wrap hd.size / c.L.nodeSize) with
            | error e => rw [h3] at h; simp [eb_error] at h
            | ok k =>
              rw [h3] at h; simp only [eb_ok, Except.ok.injEq, Prod.mk.injEq] at h
              rw [← h.2]; left; rfl

theorem buildFinish_flags {s s' : Idx c} (h : s.buildFinish = .ok s') : s'.built = true := by
  unfold Idx.buildFinish at h
  simp only [bind, Except.bind] at h
  split at h
  · cases h
  · split at h
    · cases h
    · cases h; rfl

end Stmt

variable {c : Cfg}

/-! ### C03 -/

/-- **C03.** `AddItem` with a vector of the wrong length, or on a loaded index, panics, and the whole state
– index and files – is the one before the call, so no later observation can differ. -/
theorem C03_bad_add (bk : Backend) (s : Sys c) (i : Nat) (v : List c.N.V)
    (h : s.idx.loaded = true ∨ v.length ≠ c.L.f) :
    ∃ msg, (Op.add i v).exec bk s = (.panic (.panic msg), s) := by
  unfold Op.exec
  simp only [Stmt.run_bind, Stmt.addItem_run]
  by_cases h1 : s.idx.loaded = true
  · rw [if_pos h1]; exact ⟨_, rfl⟩
  · rw [if_neg h1, if_pos (by tauto)]; exact ⟨_, rfl⟩

/-- Conversely a call in the right state with the right length is not rejected by these checks: it does
what `Idx.addItem` says. -/
theorem C03_good_add (bk : Backend) (s : Sys c) (i : Nat) (v : List c.N.V) (s' : Idx c)
    (h : s.idx.addItem i v = .ok s') : (Op.add i v).exec bk s = (.done .nil, ⟨s', s.w⟩) := by
  have h1 : ¬ s.idx.loaded = true := by
    intro h1; unfold Idx.addItem at h; rw [if_pos h1] at h; cases h
  have h2 : ¬ v.length ≠ c.L.f := by
    intro h2; unfold Idx.addItem at h; rw [if_neg h1, if_pos h2] at h; cases h
  unfold Op.exec
  simp only [Stmt.run_bind, Stmt.addItem_run]
  rw [if_neg h1, if_neg h2, h]
  rfl

example (bk : Backend) (w : World) : ∃ msg,
    (Op.add 5 [x32 1, x32 2, x32 3]).exec bk ⟨Idx.new (angular32 4 2) (Kiss32.new 0) 0, w⟩
      = (.panic (.panic msg), ⟨Idx.new (angular32 4 2) (Kiss32.new 0) 0, w⟩) :=
  C03_bad_add bk _ 5 _ (Or.inr (by decide))

/-! ### C15 -/

/-- `Build` on a loaded or built index panics and changes nothing. -/
theorem C15_build_rejected (bk : Backend) (s : Sys c) (junk : Idx c → Idx c) (rf tf lf : Nat) (t : Int)
    (h : s.idx.loaded = true ∨ s.idx.built = true) :
    ∃ msg, (Op.build junk rf tf lf t).exec bk s = (.panic (.panic msg), s) := by
  unfold Op.exec
  simp only [Stmt.run_bind, Stmt.build_run]
  by_cases h1 : s.idx.loaded = true
  · rw [if_pos h1]; exact ⟨_, rfl⟩
  · rw [if_neg h1, if_pos (by tauto)]; exact ⟨_, rfl⟩

theorem allocateSize_flags (s : Idx c) (n : Nat) :
    (s.allocateSize n).built = s.built ∧ (s.allocateSize n).loaded = s.loaded := by
  unfold Idx.allocateSize; split <;> exact ⟨rfl, rfl⟩

theorem addItem_flags {s s' : Idx c} {i : Nat} {v : List c.N.V} (h : s.addItem i v = .ok s') :
    s'.built = s.built ∧ s'.loaded = s.loaded := by
  unfold Idx.addItem at h
  split at h
  · cases h
  · split at h
    · cases h
    · simp only [bind, Except.bind] at h
      split at h
      · cases h
      · simp only [Except.ok.injEq] at h
        rw [← h]
        split <;> exact allocateSize_flags s _

/-- No call ever clears the flag `built`. -/
theorem exec_built (bk : Backend) (o : Op c) (s : Sys c) (h : s.idx.built = true) :
    (o.exec bk s).2.idx.built = true := by
  cases o with
  | add i v =>
    unfold Op.exec
    simp only [Stmt.run_bind, Stmt.addItem_run]
    by_cases h1 : s.idx.loaded = true
    · rw [if_pos h1]; exact h
    · by_cases h2 : v.length ≠ c.L.f
      · rw [if_neg h1, if_pos h2]; exact h
      · rw [if_neg h1, if_neg h2]
        cases ha : s.idx.addItem i v with
        | error e => exact (allocateSize_flags _ _).1.trans h
        | ok s' => exact (addItem_flags ha).1.trans h
  | build junk rf tf lf t =>
    obtain ⟨msg, hb⟩ := C15_build_rejected bk s junk rf tf lf t (Or.inr h)
    rw [hb]; exact h
  | save p =>
    unfold Op.exec
    obtain ⟨h1, h2⟩ := Stmt.save_run bk p s
    cases hs : s.idx.save bk s.w p with
    | error e =>
      obtain ⟨s', h3, _, h4⟩ := h2 e hs
      simp only [h3]; exact h4
    | ok r =>
      obtain ⟨e, s', w'⟩ := r
      simp only [h1 e s' w' hs]
      unfold Idx.save at hs
      rw [if_neg (by simp [h])] at hs
      cases hcr : s.w.create p with
      | none => rw [hcr] at hs; cases hs; exact h
      | some q =>
        rw [hcr] at hs
        simp only [bind, Except.bind] at hs
        split at hs
        · cases hs
        · split at hs
          · cases hs; exact h
          · split at hs
            · cases hs
            · next hl =>
              simp only [Except.ok.injEq, Prod.mk.injEq] at hs
              obtain ⟨_, rfl, _⟩ := hs
              rcases Stmt.load_built hl with h5 | h5
              · exact h5
              · exact h5.trans h
  | load p =>
    unfold Op.exec
    obtain ⟨h1, h2⟩ := Stmt.load_run bk p s
    cases hs : s.idx.load bk s.w p with
    | error e =>
      obtain ⟨s', h3, h4⟩ := h2 e hs
      simp only [h3]
      rcases h4 with h4 | h4
      · exact h4.1.trans h
      · exact h4.1
    | ok r =>
      obtain ⟨e, s'⟩ := r
      simp only [h1 e s' hs]
      rcases Stmt.load_built hs with h5 | h5
      · exact h5
      · exact h5.trans h
  | close => exact h

theorem run_built (bk : Backend) (os : List (Op c)) : ∀ s : Sys c, s.idx.built = true →
    (s.run bk os).2.idx.built = true := by
  induction os with
  | nil => intro s h; exact h
  | cons o os ih => intro s h; exact ih _ (exec_built bk o s h)

/-- A successful `Build` sets the flag. -/
theorem build_sets_built (bk : Backend) (s : Sys c) (junk : Idx c → Idx c) (rf tf lf : Nat) (t : Int)
    (e : GoErr) (s' : Sys c) (h : (Op.build junk rf tf lf t).exec bk s = (.done e, s')) :
    s'.idx.built = true := by
  unfold Op.exec at h
  simp only [Stmt.run_bind, Stmt.build_run] at h
  by_cases h1 : s.idx.loaded = true
  · rw [if_pos h1] at h; simp at h
  · by_cases h2 : s.idx.built = true
    · rw [if_neg h1, if_pos h2] at h; simp at h
    · rw [if_neg h1, if_neg h2] at h
      cases hb : s.idx.build rf tf lf t with
      | error e => rw [hb] at h; simp at h
      | ok s2 =>
        rw [hb] at h
        simp only [Stmt.run_pure, Prod.mk.injEq] at h
        rw [← h.2]
        unfold Idx.build at hb
        simp only [bind, Except.bind] at hb
        split at hb
        · cases hb
        · split at hb
          · cases hb
          · exact Stmt.buildFinish_flags hb

/-- **C15, at most one build.** In every history of calls (with all panics recovered), after a `Build` that
succeeded, whatever is called in between, every later `Build` panics and changes nothing. -/
theorem C15_built_once (bk : Backend) (s s1 : Sys c) (junk junk' : Idx c → Idx c) (rf tf lf rf' tf' lf' : Nat)
    (t t' : Int) (e : GoErr) (h : (Op.build junk rf tf lf t).exec bk s = (.done e, s1)) (between : List (Op c)) :
    ∃ msg, (Op.build junk' rf' tf' lf' t').exec bk (s1.run bk between).2
      = (.panic (.panic msg), (s1.run bk between).2) :=
  C15_build_rejected bk _ _ _ _ _ _ (Or.inr (run_built bk between s1 (build_sets_built bk s junk rf tf lf t e s1 h)))

/-- **C15, loaded means read-only.** While an index is loaded, `AddItem` and `Build` panic and change nothing,
for any number of such calls. -/
theorem C15_loaded_read_only (bk : Backend) (s : Sys c) (h : s.idx.loaded = true) (os : List (Op c))
    (hos : ∀ o ∈ os, (∃ i v, o = .add i v) ∨ ∃ j rf tf lf t, o = .build j rf tf lf t) :
    (s.run bk os).2 = s ∧ ∀ r ∈ (s.run bk os).1, ∃ msg, r = .panic (.panic msg) := by
  induction os with
  | nil => exact ⟨rfl, by simp [Sys.run]⟩
  | cons o os ih =>
    have ho : ∃ msg, o.exec bk s = (.panic (.panic msg), s) := by
      rcases hos o (by simp) with ⟨i, v, rfl⟩ | ⟨j, rf, tf, lf, t, rfl⟩
      · exact C03_bad_add bk s i v (Or.inl h)
      · exact C15_build_rejected bk s j rf tf lf t (Or.inl h)
    obtain ⟨msg, ho⟩ := ho
    obtain ⟨i1, i2⟩ := ih (fun o' h' => hos o' (by simp [h']))
    simp only [Sys.run, ho]
    refine ⟨i1, ?_⟩
    intro r hr
    rcases List.mem_cons.1 hr with rfl | hr
    · exact ⟨msg, rfl⟩
    · exact i2 r hr

/-- A successful `Load` makes the index loaded. -/
theorem C15_load_sets_loaded {bk : Backend} {w : World} {s s' : Idx c} {path : String}
    (h : s.load bk w path = .ok (.nil, s')) : s'.loaded = true ∧ s'.built = true := by
  unfold Idx.load at h
  simp only [bind, Except.bind] at h
  split at h
  · cases h
  · split at h
    · cases h
    · split at h
      · cases h
      · split at h
        · cases h
        · split at h
          · cases h
          · split at h
            · cases h
            · simp only [Except.ok.injEq, Prod.mk.injEq] at h
              rw [← h.2]; exact ⟨rfl, rfl⟩

/-- **C15, save needs a build.** `Save` on an index that is not built returns an error; index and files
stay as they are. -/
theorem C15_save_unbuilt (bk : Backend) (s : Sys c) (path : String) (h : s.idx.built = false) :
    ∃ msg, (Op.save path).exec bk s = (.done (.err msg), s) := by
  unfold Op.exec
  have hs : s.idx.save bk s.w path = .ok (.err "can't save an index that hasn't been built", s.idx, s.w) := by
    unfold Idx.save; rw [if_pos h]
  refine ⟨"can't save an index that hasn't been built", ?_⟩
  simp only [(Stmt.save_run bk path s).1 _ _ _ hs]

/-- **C15.** A new index that was never asked to build or load is not built, so every `Save` in such a history
returns an error and no file is ever touched. -/
theorem C15_save_without_build (bk : Backend) (r : c.R.σ) (hint : Nat) (w : World) (os : List (Op c))
    (hos : ∀ o ∈ os, (∀ j rf tf lf t, o ≠ .build j rf tf lf t) ∧ ∀ p, o ≠ .load p) (path : String) :
    ((Sys.mk (Idx.new c r hint) w).run bk os).2.w = w ∧
    ∃ msg, ((Op.save path).exec bk ((Sys.mk (Idx.new c r hint) w).run bk os).2).1 = .done (.err msg) := by
  have key : ∀ s : Sys c, s.idx.built = false → (s.run bk os).2.w = s.w ∧ (s.run bk os).2.idx.built = false := by
    induction os with
    | nil => intro s h; exact ⟨rfl, h⟩
    | cons o os ih =>
      intro s h
      have ho : (o.exec bk s).2.w = s.w ∧ (o.exec bk s).2.idx.built = false := by
        have hne := hos o (by simp)
        cases o with
        | add i v =>
          unfold Op.exec
          simp only [Stmt.run_bind, Stmt.addItem_run]
          by_cases h1 : s.idx.loaded = true
          · rw [if_pos h1]; exact ⟨rfl, h⟩
          · by_cases h2 : v.length ≠ c.L.f
            · rw [if_neg h1, if_pos h2]; exact ⟨rfl, h⟩
            · rw [if_neg h1, if_neg h2]
              cases ha : s.idx.addItem i v with
              | error e => exact ⟨rfl, (allocateSize_flags _ _).1.trans h⟩
              | ok s' => exact ⟨rfl, (addItem_flags ha).1.trans h⟩
        | build j rf tf lf t => exact absurd rfl (hne.1 j rf tf lf t)
        | load p => exact absurd rfl (hne.2 p)
        | save p =>
          obtain ⟨msg, hs⟩ := C15_save_unbuilt bk s p h
          rw [hs]; exact ⟨rfl, h⟩
        | close => exact ⟨rfl, h⟩
      obtain ⟨h1, h2⟩ := ih (fun o' h' => hos o' (by simp [h'])) _ ho.2
      exact ⟨h1.trans ho.1, h2⟩
  obtain ⟨h1, h2⟩ := key ⟨Idx.new c r hint, w⟩ rfl
  refine ⟨h1, ?_⟩
  obtain ⟨msg, hs⟩ := C15_save_unbuilt bk _ path h2
  exact ⟨msg, by rw [hs]⟩

/-- Concrete: a `Build` that succeeds (two items, one tree) exists, so `C15_built_once` is not vacuous. -/
def twoItems : Except Err (Idx (angular32 4 2)) := do
  let s ← (Idx.new (angular32 4 2) (Kiss32.new 0) 0).addItem 0 [x32 0x3f800000, x32 0]
  s.addItem 1 [x32 0, x32 0x3f800000]

theorem exec_build_ok (bk : Backend) (s : Idx c) (w : World) (junk : Idx c → Idx c) (rf tf lf : Nat) (t : Int)
    (s' : Idx c) (h : s.build rf tf lf t = .ok s') :
    (Op.build junk rf tf lf t).exec bk ⟨s, w⟩ = (.done .nil, ⟨s', w⟩) := by
  have h1 : ¬ s.loaded = true := by
    intro h1; unfold Idx.build Idx.buildStart at h; rw [if_pos h1] at h; cases h
  have h2 : ¬ s.built = true := by
    intro h2; unfold Idx.build Idx.buildStart at h; rw [if_neg h1, if_pos h2] at h; cases h
  unfold Op.exec
  simp only [Stmt.run_bind, Stmt.build_run]
  rw [if_neg h1, if_neg h2, h]
  rfl

theorem twoItems_built (bk : Backend) (w : World) : ∃ s s1 : Sys (angular32 4 2),
    (Op.build id 5 5 5 1).exec bk s = (.done .nil, s1) ∧ s1.w = w := by
  have h : (twoItems >>= fun s => s.build 5 5 5 1).toBool = true := by decide +kernel
  cases ht : twoItems with
  | error e => rw [ht] at h; cases h
  | ok s =>
    rw [ht, Stmt.eb_ok] at h
    cases hb : s.build 5 5 5 1 with
    | error e => rw [hb] at h; cases h
    | ok s' => exact ⟨⟨s, w⟩, ⟨s', w⟩, exec_build_ok bk s w id 5 5 5 1 s' hb, rfl⟩

/-- A built index can be loaded only; a second build panics. -/
example (bk : Backend) (w : World) : ∃ s s1 : Sys (angular32 4 2), ∃ msg,
    (Op.build id 5 5 5 1).exec bk s = (.done .nil, s1) ∧
    ((Op.build id 5 5 5 1).exec bk (s1.run bk [.close, .add 0 [x32 1, x32 2]]).2).1 = .panic (.panic msg) := by
  obtain ⟨s, s1, h, _⟩ := twoItems_built bk w
  obtain ⟨msg, h2⟩ := C15_built_once bk s s1 id id 5 5 5 5 5 5 1 1 .nil h [.close, .add 0 [x32 1, x32 2]]
  exact ⟨s, s1, msg, h, by rw [h2]⟩

/-! ### C36 -/

/-- Generators whose `CloneAndReset` depends on the seed only. -/
def Rng.ResetLaw (R : Rng) : Prop := ∀ r, R.cloneAndReset (R.cloneAndReset r) = R.cloneAndReset r

theorem kiss32_reset (w : Nat) : (kiss32Rng w).ResetLaw := by
  intro r
  show Kiss32.new (Kiss32.new r.seed).seed = Kiss32.new r.seed
  simp only [Kiss32.new]
  by_cases h : r.seed = 0 <;> simp [h]

theorem closed_itemInv (hL : c.L.Ok c.C.sz) (s : Idx c) : s.close.ItemInv (fun _ => none) 0 := by
  have := Idx.ItemInv.new c hL (c.R.cloneAndReset s.rng) 0
  constructor
  · exact ⟨this.memOK.fits, this.memOK.size, this.memOK.nodes⟩
  · rfl
  · rfl
  · simp
  · intro x _; rfl
  · intro i v h; cases h
  · intro h; omega
  · intro i v h; cases h
  · intro i h; omega

/-- **C36.** `Close` never fails; afterwards the index has no items, no roots, no node memory and no open
file; a second `Close` changes nothing; and every sequence of legal `AddItem` calls works as on a new
index. -/
theorem C36_close (hc : c.WF) (hR : c.R.ResetLaw) (s : Idx c) :
    s.close.nItems = 0 ∧ s.close.roots = [] ∧ s.close.nNodes = 0 ∧ s.close.loaded = false ∧
    s.close.indexMemory = none ∧ (∀ w, (s.close.mem w).size = 0) ∧
    s.close.close = s.close ∧
    (∀ w adds, LegalAdds c adds → ∃ s', s.close.addAll adds = .ok s' ∧ s'.nItems = slotCount adds ∧
      (∀ i v, lastAdded adds i = some v → s'.getItem w i = .ok v) ∧
      (∀ i, IsItem c.L (s'.mem w).get s'.nItems i ↔ (lastAdded adds i).isSome)) := by
  refine ⟨rfl, rfl, rfl, rfl, rfl, fun w => rfl, ?_,
    fun w adds hl => adds_from_empty hc _ (closed_itemInv hc.layout s) w adds hl⟩
  show Idx.mk .. = Idx.mk ..
  congr 1
  exact hR s.rng

example : (angular32 4 2).WF ∧ (angular32 4 2).R.ResetLaw :=
  ⟨angular32_wf (Or.inl rfl) (by decide), kiss32_reset _⟩

/-! ### C37 -/

/-- After a successful `Build`, `Close` and any further `AddItem` calls, `Build` panics. -/
theorem C37_never_again (bk : Backend) (s s1 : Sys c) (junk junk' : Idx c → Idx c) (rf tf lf rf' tf' lf' : Nat)
    (t t' : Int) (e : GoErr) (h : (Op.build junk rf tf lf t).exec bk s = (.done e, s1))
    (adds : List (Nat × List c.N.V)) :
    ∃ msg, ((Op.build junk' rf' tf' lf' t').exec bk
      (s1.run bk (.close :: adds.map fun p => .add p.1 p.2)).2).1 = .panic (.panic msg) := by
  obtain ⟨msg, h⟩ := C15_built_once bk s s1 junk junk' rf tf lf rf' tf' lf' t t' e h
    (.close :: adds.map fun p => .add p.1 p.2)
  exact ⟨msg, by rw [h]⟩

/-- **C37 is false**: there is an index that was built and can, after `Close`, never be built again, whatever
is added. -/
theorem C37_refuted (bk : Backend) (w : World) : ∃ s s1 : Sys (angular32 4 2),
    (Op.build id 5 5 5 1).exec bk s = (.done .nil, s1) ∧
    ∀ adds : List (Nat × List ieee32.V), ∃ msg, ((Op.build id 5 5 5 1).exec bk
      (s1.run bk (.close :: adds.map fun p => .add p.1 p.2)).2).1 = .panic (.panic msg) := by
  obtain ⟨s, s1, h, _⟩ := twoItems_built bk w
  exact ⟨s, s1, h, fun adds => C37_never_again bk s s1 id id 5 5 5 5 5 5 1 1 .nil h adds⟩

/-- What holds (**C37 partial**): closing an index that was neither built nor loaded gives exactly a new index
with the reset generator (the context size hint keeps its value, which is 0 for such an index).
Missing: `Close` does not reset `indexBuilt`. -/
theorem C37_partial (s : Idx c) (h : s.built = false) :
    s.close = { Idx.new c (c.R.cloneAndReset s.rng) 0 with batchMaxNNS := s.batchMaxNNS } := by
  show Idx.mk .. = Idx.mk ..
  congr 1

end Annoy
