import Verif.Props.Files
/-!
# Files with arbitrary content (C57)
-/
namespace Annoy

section
variable {c : Cfg}

/-! ### `Load` ends -/

theorem getNode_error {L : Layout} {m : Block} {i : Nat} {e : Err} (h : getNode L m i = .error e) : e = .oob := by
  unfold getNode at h
  split at h
  · cases h
  · cases h; rfl

/-- Below node 0 there is nothing. -/
theorem getNode_below (hL : c.L.Ok c.C.sz) {m : Block} (hm : m.size < c.L.range) : getNode c.L m (c.L.range - 1) = .error .oob := by
  have hp := hL.nodeSize_pos
  have hsz := hL.size_lt
  unfold getNode
  rw [if_neg]
  have : c.L.addr (c.L.range - 1) = c.L.range - c.L.nodeSize := by
    unfold Layout.addr Layout.wrap
    have e : c.L.nodeSize * (c.L.range - 1) = (c.L.nodeSize - 1) * c.L.range + (c.L.range - c.L.nodeSize) := by
      obtain ⟨k, hk⟩ : ∃ k, c.L.range = c.L.nodeSize + k := ⟨c.L.range - c.L.nodeSize, by omega⟩
      obtain ⟨q, hq⟩ : ∃ q, c.L.nodeSize = q + 1 := ⟨c.L.nodeSize - 1, by omega⟩
      rw [hk, hq]
      simp only [Nat.add_sub_cancel, Nat.add_sub_cancel_left]
      rw [show q + 1 + k - 1 = q + k by omega]
      ring
    rw [Nat.mul_comm, e, Nat.mul_add_mod_self_right]
    exact Nat.mod_eq_of_lt (by omega)
  omega

/-- The scan has fuel for every node of a file, and for the step below node 0. -/
theorem scanRoots_ends (hL : c.L.Ok c.C.sz) {m : Block} (hm : m.size < c.L.range) :
    ∀ (fuel i : Nat) (md : Option Nat), i + 1 < fuel → Idx.scanRoots c m fuel i md ≠ .error .diverge := by
  have hp := hL.nodeSize_pos
  have hsz := hL.size_lt
  have hstep : ∀ (fuel i : Nat) (md : Option Nat), getNode c.L m i = .error .oob →
      Idx.scanRoots c m (fuel + 1) i md = .error .oob := by
    intro fuel i md h
    unfold Idx.scanRoots
    rw [h]
    rfl
  have hlast := getNode_below hL hm
  intro fuel
  induction fuel with
  | zero => intro i md h; omega
  | succ fuel ih =>
    intro i md h
    cases hg : getNode c.L m i with
    | error e =>
      obtain rfl := getNode_error hg
      rw [hstep fuel i md hg]
      simp
    | ok a =>
      unfold Idx.scanRoots
      rw [hg]
      simp only [bind, Except.bind]
      split
      · by_cases hi : i = 0
        · rw [if_pos hi]
          obtain ⟨f, rfl⟩ : ∃ f, fuel = f + 1 := ⟨fuel - 1, by omega⟩
          rw [hstep f _ _ hlast]
          simp
        · rw [if_neg hi]
          have := ih (i - 1) (some (Node.nDesc c.L m.get a)) (by omega)
          split
          · next e he => rw [he] at this; simpa using this
          · simp
      · simp

/-- What is left of **C57**, first part: `Load` comes to an end on every file smaller than the range of the index type, whatever is in
it (with a result, an error, a panic or a fault). -/
theorem C57_load_ends_partial (hc : c.WF) (bk : Backend) {w : World} {path : String}
    (hlt : ∀ bytes, w.read path = some bytes → bytes.length < c.L.range) (u : Idx c) : u.load bk w path ≠ .error .diverge := by
  cases hd : w.dir path with
  | none =>
    unfold Idx.load openIndex
    rw [hd]
    simp [bind, Except.bind]
  | some i =>
    have hlt := hlt (w.content i) (by simp [World.read, hd])
    by_cases h0 : w.content i = []
    · unfold Idx.load openIndex
      rw [hd]
      cases bk <;> simp [h0, bind, Except.bind]
    · obtain ⟨_, h1⟩ := Idx.load_bytes (bk := bk) hd rfl h0 u
      rw [h1]
      split
      · simp
      next hmod =>
        have hmod : (w.content i).length % c.L.nodeSize = 0 := not_not.1 hmod
        have hpos : 0 < (w.content i).length := List.length_pos_iff.2 h0
        simp only [bind, Except.bind]
        set n := c.L.wrap (w.content i).length / c.L.nodeSize with hn
        have hn0 : n ≠ 0 := by
          intro h
          rw [hn, c.L.wrap_eq hlt] at h
          have := Nat.div_mul_cancel (Nat.dvd_of_mod_eq_zero hmod)
          rw [h] at this
          omega
        clear_value n
        rw [if_neg hn0]
        have hs := scanRoots_ends hc.layout (m := Block.ofList (w.content i)) hlt (n + 2) (n - 1) none (by omega)
        split
        · next e he => rw [he] at hs; simpa using hs
        · have hdd : ∀ r, Idx.dropDup c (Block.ofList (w.content i)) r ≠ .error .diverge := by
            intro r
            unfold Idx.dropDup
            split
            · simp only [bind, Except.bind]
              split
              · next e he => obtain rfl := getNode_error he; simp
              · split
                · next e he => obtain rfl := getNode_error he; simp
                · repeat' split
                  all_goals simp
            · simp
          split
          · next e he => intro h; cases h; exact hdd _ he
          · split
            · next e he =>
              intro h
              cases h
              unfold Idx.countNNS at he
              simp only [bind, Except.bind] at he
              split at he
              · next e' he' =>
                cases he
                have : ∀ l : List Nat, ∀ k, l.mapM (Idx.nnsOf c (Block.ofList (w.content i)) k) ≠ .error .diverge := by
                  intro l k
                  induction l with
                  | nil => simp [pure, Except.pure]
                  | cons x l ih =>
                    rw [List.mapM_cons]
                    simp only [bind, Except.bind, Idx.nnsOf]
                    cases hg : getNode c.L (Block.ofList (w.content i)) x with
                    | error e => obtain rfl := getNode_error hg; simp
                    | ok a =>
                      simp only
                      split
                      · next e he => intro h; cases h; exact ih he
                      · simp [pure, Except.pure]
                exact this _ _ he'
              · cases he
            · simp

/-! ### searches of files -/

/-- A file that can be searched: every node is an item, or a bucket of nodes of the file, or leads to nodes before it.  (Nothing is said about
counts, vectors or norms.) -/
def Tame (c : Cfg) (mem : Block) (n N : Nat) : Prop :=
  ∀ i, i < N → (i < n ∧ ndAt c.L mem.get i = 1) ∨
    (ndAt c.L mem.get i ≤ c.L.K ∧ ∀ x ∈ childrenAt c.L mem.get i, x < N) ∨
    (c.L.K < ndAt c.L mem.get i ∧ childAt c.L mem.get i 0 < i ∧ childAt c.L mem.get i 1 < i)

/-- What is still to be popped, at most. -/
def weight {α : Type} (q : List (α × Nat)) : Nat := (q.map fun e => 2 ^ (e.2 + 1) - 1).sum

theorem weight_cons {α : Type} (e : α × Nat) (q : List (α × Nat)) : weight (e :: q) = 2 ^ (e.2 + 1) - 1 + weight q := by
  simp [weight]

theorem weight_perm {α : Type} {q q' : List (α × Nat)} (h : q.Perm q') : weight q = weight q' :=
  (h.map _).sum_eq

theorem take_copyAt {buf src : List Nat} {cnt : Nat} (hc : cnt ≤ buf.length) {P : Nat → Prop} (h1 : ∀ x ∈ buf.take cnt, P x)
    (h2 : ∀ x ∈ src, P x) : ∀ x ∈ (Search.copyAt buf cnt src).take (cnt + src.length), P x := by
  intro x hx
  unfold Search.copyAt at hx
  by_cases hl : cnt + src.length ≤ buf.length
  · have e : (buf.take cnt ++ src.take (buf.length - cnt)).length = cnt + src.length := by
      simp only [List.length_append, List.length_take]
      omega
    rw [List.take_append_of_le_length (by omega)] at hx
    rcases List.mem_append.1 (List.mem_of_mem_take hx) with h | h
    · exact h1 x h
    · exact h2 x (List.mem_of_mem_take h)
  · rw [List.drop_of_length_le (by omega), List.append_nil] at hx
    rcases List.mem_append.1 (List.mem_of_mem_take hx) with h | h
    · exact h1 x h
    · exact h2 x (List.mem_of_mem_take h)

/-- The collecting loop on a tame file ends, and collects nodes of the file. -/
theorem loop_tame {mem : Block} {n N : Nat} (ht : Tame c mem n N) (hnode : ∀ i, i < N → getNode c.L mem i = .ok (i * c.L.nodeSize))
    {query : List c.N.V} (hm : MarginOk c query) (budget : Int) :
    ∀ (fuel : Nat) (q : List (c.N.V × Nat)) (buf : List Nat) (cnt : Nat), weight q < fuel → (∀ e ∈ q, e.2 < N) →
      (∀ x ∈ buf.take cnt, x < N) →
      (∃ buf' cnt', Search.loop c mem n query budget fuel q buf cnt = .ok (buf', cnt') ∧ ∀ x ∈ buf'.take cnt', x < N) ∨
      ∃ msg, Search.loop c mem n query budget fuel q buf cnt = .error (.panic msg) := by
  intro fuel
  induction fuel with
  | zero => intro q buf cnt h; omega
  | succ fuel ih =>
    intro q buf cnt hw hq hb
    unfold Search.loop
    split
    · cases hp : Heap.pop (pairLess c.N) q with
      | none => exact Or.inl ⟨_, _, rfl, hb⟩
      | some x =>
        obtain ⟨⟨d, i⟩, q'⟩ := x
        have hperm := Heap.pop_perm _ _ _ _ hp
        have hi : i < N := hq (d, i) (hperm.subset (by simp))
        have hq' : ∀ e ∈ q', e.2 < N := fun e he => hq e (hperm.subset (by simp [he]))
        rw [← weight_perm hperm, weight_cons] at hw
        have h2 : 1 < 2 ^ (i + 1) := Nat.one_lt_two_pow (by omega)
        dsimp only at hw
        simp only [hnode i hi, bind, Except.bind]
        split
        · split
          · next hlt =>
            refine ih q' _ _ (by omega) hq' ?_
            intro x hx
            rw [List.take_add_one, List.take_set_of_le (by omega)] at hx
            rcases List.mem_append.1 hx with h | h
            · exact hb x h
            · simp [hlt] at h
              omega
          · exact Or.inr ⟨_, rfl⟩
        · next hno =>
          split
          · next hK =>
            split
            · next hle =>
              refine ih q' _ _ (by omega) hq' ?_
              have hlen : (Node.getChildren c.L mem.get (i * c.L.nodeSize)).length = Node.nDesc c.L mem.get (i * c.L.nodeSize) := by
                simp [Node.getChildren]
              rw [← hlen]
              refine take_copyAt hle hb ?_
              rcases ht i hi with h | h | h
              · exact absurd ⟨h.2, h.1⟩ hno
              · exact h.2
              · exact absurd h.1 (by show ¬ _; have : ndAt c.L mem.get i ≤ c.L.K := hK; omega)
            · exact Or.inr ⟨_, rfl⟩
          · next hK =>
            obtain ⟨v, hv⟩ := hm mem.get (i * c.L.nodeSize)
            simp only [hv]
            obtain ⟨h3, h4, h5⟩ : c.L.K < ndAt c.L mem.get i ∧ childAt c.L mem.get i 0 < i ∧ childAt c.L mem.get i 1 < i := by
              rcases ht i hi with h | h | h
              · exact absurd ⟨h.2, h.1⟩ hno
              · exact absurd h.1 hK
              · exact h
            have hpp := (Heap.push_perm (pairLess c.N) (Heap.push (pairLess c.N) q'
              (c.D.pqDistance d v .right, Node.child c.L mem.get (i * c.L.nodeSize) 1))
              (c.D.pqDistance d v .left, Node.child c.L mem.get (i * c.L.nodeSize) 0)).trans
              ((Heap.push_perm (pairLess c.N) q' (c.D.pqDistance d v .right, Node.child c.L mem.get (i * c.L.nodeSize) 1)).cons _)
            refine ih _ _ _ ?_ ?_ hb
            · rw [weight_perm hpp, weight_cons, weight_cons]
              dsimp only
              have p1 : 2 ^ (childAt c.L mem.get i 0 + 1) ≤ 2 ^ i := Nat.pow_le_pow_right (by omega) (by omega)
              have p2 : 2 ^ (childAt c.L mem.get i 1 + 1) ≤ 2 ^ i := Nat.pow_le_pow_right (by omega) (by omega)
              have p3 : 0 < 2 ^ (childAt c.L mem.get i 0 + 1) := by positivity
              have p4 : 0 < 2 ^ (childAt c.L mem.get i 1 + 1) := by positivity
              rw [Nat.pow_succ] at hw h2
              unfold childAt at p1 p2 p3 p4
              omega
            · intro e he
              rcases List.mem_cons.1 (hpp.subset he) with rfl | he
              · exact lt_trans h4 hi
              · rcases List.mem_cons.1 he with rfl | he
                · exact lt_trans h5 hi
                · exact hq' e he
    · exact Or.inl ⟨_, _, rfl, hb⟩

theorem distances_tame {mem : Block} {N : Nat} (hnode : ∀ i, i < N → getNode c.L mem i = .ok (i * c.L.nodeSize)) (vn : Bytes) :
    ∀ (l : List Nat) (last : Option Nat), (∀ x ∈ l, x < N) → ∃ ds, Search.distances c mem vn last l = .ok ds := by
  intro l
  induction l with
  | nil => intro last _; exact ⟨[], rfl⟩
  | cons j js ih =>
    intro last h
    unfold Search.distances
    split
    · exact ih _ fun x hx => h x (by simp [hx])
    · obtain ⟨ds, hd⟩ := ih (some j) fun x hx => h x (by simp [hx])
      simp only [hnode j (h j (by simp)), hd, bind, Except.bind]
      split <;> exact ⟨_, rfl⟩

/-- The scan goes down. -/
theorem scanRoots_le (hL : c.L.Ok c.C.sz) {m : Block} (hm : m.size < c.L.range) :
    ∀ (fuel i : Nat) (md : Option Nat) {rs : List Nat} {md' : Option Nat}, Idx.scanRoots c m fuel i md = .ok (rs, md') →
      ∀ r ∈ rs, r ≤ i := by
  intro fuel
  induction fuel with
  | zero => intro i md rs md' h; cases h
  | succ fuel ih =>
    intro i md rs md' h
    unfold Idx.scanRoots at h
    simp only [bind, Except.bind] at h
    split at h
    · cases h
    · split at h
      · split at h
        · cases h
        · next x hx =>
          cases h
          intro r hr
          rcases List.mem_cons.1 hr with rfl | hr
          · exact le_rfl
          · by_cases hi : i = 0
            · rw [if_pos hi] at hx
              cases fuel with
              | zero => cases hx
              | succ fuel =>
                unfold Idx.scanRoots at hx
                rw [getNode_below hL hm] at hx
                cases hx
            · rw [if_neg hi] at hx
              have := ih _ _ hx r hr
              omega
      · cases h; simp

/-- What is left of **C57**, second part: on every file that `Load` accepts and whose inner nodes lead to nodes before them, every
search ends, with an answer or a panic; nothing outside the file is read.  Files of built indexes are of this kind
(`C65_search_terminates_loaded`).  (Missing: `C57_refuted`.) -/
theorem C57_tame_partial (hc : c.WF) {bk : Backend} {w : World} {path : String} {u t : Idx c}
    (hlt : ∀ bytes, w.read path = some bytes → bytes.length < c.L.range)
    (hl : u.load bk w path = .ok (.nil, t)) (ht : Tame c (t.mem w) t.nItems t.nNodes) :
    ∃ F : Nat, ∀ (query : List c.N.V), GoodQuery c query → ∀ (k b : Int) (ctx : Ctx c) (fuel : Nat), F ≤ fuel →
      (∃ x, t.getNnsByVector fuel w query k b ctx = .ok x) ∨
      ∃ msg, t.getNnsByVector fuel w query k b ctx = .error (.panic msg) := by
  obtain ⟨i, bytes, h1, h2, h3, h4, h5, h6, _, _, ⟨rs, h9, h10⟩, _, _⟩ := Idx.load_ok hl
  have hlt := hlt bytes (by simp [World.read, h1, h2])
  have hn : t.nNodes * c.L.nodeSize = bytes.length := by
    rw [h6, c.L.wrap_eq hlt]
    exact Nat.div_mul_cancel (Nat.dvd_of_mod_eq_zero h4)
  have hpos : 0 < bytes.length := List.length_pos_iff.2 h3
  have hN : 0 < t.nNodes := by
    rcases Nat.eq_zero_or_pos t.nNodes with h | h
    · rw [h] at hn; omega
    · exact h
  have hnode : ∀ i, i < t.nNodes → getNode c.L (t.mem w) i = .ok (i * c.L.nodeSize) := by
    intro i hi
    have := Idx.getNode_block (c := c) (b := (Block.ofList bytes).get) (by rw [hn]; exact hlt) hi
    rw [hn] at this
    rw [h5]
    exact this
  have hroots : ∀ r ∈ t.roots, r < t.nNodes := by
    rw [if_neg (by omega)] at h9
    have hle := scanRoots_le hc.layout (m := Block.ofList bytes) hlt _ _ _ h9
    have hsub : ∀ r ∈ t.roots, r ∈ rs := by
      unfold Idx.dropDup at h10
      split at h10
      · simp only [bind, Except.bind] at h10
        split at h10
        · cases h10
        · split at h10
          · cases h10
          · split at h10
            · cases h10
            · split at h10
              · have h10 := Except.ok.inj h10
                rw [← h10]
                exact fun r hr => List.mem_of_mem_dropLast hr
              · have h10 := Except.ok.inj h10
                rw [← h10]
                exact fun r hr => hr
      · have h10 := Except.ok.inj h10
        rw [← h10]
        exact fun r hr => hr
    intro r hr
    have := hle r (hsub r hr)
    omega
  refine ⟨weight (Search.initQueue c t.roots) + 1, fun query hq k b ctx fuel hf => ?_⟩
  have hq0 : ∀ e ∈ Search.initQueue c t.roots, e.2 < t.nNodes := by
    intro e he
    have := (Search.initQueue_perm t.roots).subset he
    obtain ⟨r, hr, rfl⟩ := List.mem_map.1 this
    exact hroots r hr
  unfold Idx.getNnsByVector Search.run
  simp only [bind, Except.bind]
  rcases loop_tame ht hnode hq.margin (if b = -1 then k * t.roots.length else b) fuel (Search.initQueue c t.roots) ctx.nns 0
    (by omega) hq0 (by simp) with ⟨buf, cnt, e1, e2⟩ | ⟨msg, e1⟩
  · simp only [e1]
    split
    · exact Or.inr ⟨_, rfl⟩
    · simp only [Search.queryNode_ok hc hq.length]
      obtain ⟨ds, hd⟩ := distances_tame hnode (canon c query) (c.sortIds (buf.take cnt)) none
        (fun x hx => e2 x ((hc.sortIds_perm _).subset hx))
      simp only [hd]
      exact Or.inl ⟨_, rfl⟩
  · simp only [e1]
    exact Or.inr ⟨_, rfl⟩

/-! ### a file on which searches do not end -/

/-- If all that is left in the queue leads back to itself, the loop never ends. -/
theorem loop_cycle {mem : Block} {n i : Nat} {query : List c.N.V} (hm : MarginOk c query) {budget : Int} (hb : 0 < budget)
    {a : Nat} (hnode : getNode c.L mem i = .ok a) (hnd : c.L.K < Node.nDesc c.L mem.get a) (h1 : 1 ≤ c.L.K)
    (hc0 : Node.child c.L mem.get a 0 = i) (hc1 : Node.child c.L mem.get a 1 = i) (buf : List Nat) :
    ∀ (fuel : Nat) (q : List (c.N.V × Nat)), q ≠ [] → (∀ e ∈ q, e.2 = i) →
      Search.loop c mem n query budget fuel q buf 0 = .error .diverge := by
  intro fuel
  induction fuel with
  | zero => intro q _ _; rfl
  | succ fuel ih =>
    intro q hne hq
    unfold Search.loop
    rw [if_pos (by simpa using hb)]
    cases hp : Heap.pop (pairLess c.N) q with
    | none => exact absurd ((Heap.pop_none _ _).1 hp) hne
    | some x =>
      obtain ⟨⟨d, i'⟩, q'⟩ := x
      have hperm := Heap.pop_perm _ _ _ _ hp
      obtain rfl : i' = i := hq (d, i') (hperm.subset (by simp))
      have hq' : ∀ e ∈ q', e.2 = i' := fun e he => hq e (hperm.subset (by simp [he]))
      simp only [hnode, bind, Except.bind]
      rw [if_neg (by omega), if_neg (by omega)]
      obtain ⟨v, hv⟩ := hm mem.get a
      simp only [hv, hc0, hc1]
      have hpp := (Heap.push_perm (pairLess c.N) (Heap.push (pairLess c.N) q' (c.D.pqDistance d v .right, i'))
        (c.D.pqDistance d v .left, i')).trans
        ((Heap.push_perm (pairLess c.N) q' (c.D.pqDistance d v .right, i')).cons _)
      refine ih _ ?_ ?_
      · intro h0
        rw [h0] at hpp
        exact absurd hpp.length_eq (by simp)
      · intro e he
        rcases List.mem_cons.1 (hpp.subset he) with rfl | he
        · rfl
        · rcases List.mem_cons.1 he with rfl | he
          · rfl
          · exact hq' e he

/-- Two nodes for vectors of length 2: an item, and an inner node with five descendants whose children are itself. -/
def cyclicFile : List Byte :=
  [1, 0, 0, 0] ++ List.replicate 16 0 ++ [5, 0, 0, 0, 1, 0, 0, 0, 1, 0, 0, 0] ++ List.replicate 8 0

/-- **C57 as stated is false**: `Load` accepts `cyclicFile`, and no search of it that asks for anything ever ends. -/
theorem C57_refuted (w : World) (path : String) (hr : w.read path = some cyclicFile) (bk : Backend) (u : Idx (angular32 4 2)) :
    ∃ t, u.load bk w path = .ok (.nil, t) ∧
      ∀ (query : List ieee32.V), GoodQuery (angular32 4 2) query → ∀ (k b : Int), 0 < k → (0 < b ∨ b = -1) → ∀ ctx fuel,
        t.getNnsByVector fuel w query k b ctx = .error .diverge := by
  obtain ⟨i, hi, hb⟩ := Option.map_eq_some_iff.1 hr
  obtain ⟨_, hl⟩ := Idx.load_bytes (c := angular32 4 2) (bk := bk) hi hb (by decide) u
  rw [if_neg (by decide)] at hl
  have e1 : Idx.scanRoots (angular32 4 2) (Block.ofList cyclicFile)
      ((angular32 4 2).L.wrap cyclicFile.length / (angular32 4 2).L.nodeSize + 2)
      (if (angular32 4 2).L.wrap cyclicFile.length / (angular32 4 2).L.nodeSize = 0 then (angular32 4 2).L.range - 1
        else (angular32 4 2).L.wrap cyclicFile.length / (angular32 4 2).L.nodeSize - 1) none = .ok ([1], some 5) := by decide +kernel
  have e2 : Idx.dropDup (angular32 4 2) (Block.ofList cyclicFile) [1] = .ok [1] := by decide +kernel
  have e3 : Idx.countNNS (angular32 4 2) (Block.ofList cyclicFile) 5
    ((angular32 4 2).L.wrap cyclicFile.length / (angular32 4 2).L.nodeSize) = .ok 0 := by decide +kernel
  simp only [e1, bind, Except.bind] at hl
  simp only [e2, Option.getD_some, e3] at hl
  refine ⟨_, hl, ?_⟩
  obtain ⟨i', bytes, g1, g2, _, _, hm, _⟩ := Idx.load_ok hl
  obtain rfl : cyclicFile = bytes := by
    rw [hi] at g1
    cases g1
    exact hb.symm.trans g2
  intro query hq k b hk hb' ctx fuel
  unfold Idx.getNnsByVector Search.run
  rw [hm]
  have hbud : (0 : Int) < if b = -1 then k * ([1] : List Nat).length else b := by
    split
    · simpa using hk
    · rcases hb' with h | h
      · exact h
      · contradiction
  have := loop_cycle (c := angular32 4 2) (mem := Block.ofList cyclicFile) (n := 5) (i := 1) (a := 20) hq.margin hbud
    (by decide +kernel) (by decide +kernel) (by decide +kernel) (by decide +kernel) (by decide +kernel) ctx.nns fuel
    (Search.initQueue (angular32 4 2) [1]) (by decide) (by
      intro e he
      have := (Search.initQueue_perm (c := angular32 4 2) [1]).subset he
      simp at this
      rw [this])
  simp only [this, bind, Except.bind]

/-- A world with the cyclic file, and a query: the hypotheses of `C57_refuted` and of C60 (`Load` succeeds). -/
example : (oneFile "x" cyclicFile).read "x" = some cyclicFile ∧ GoodQuery (angular32 4 2) query2 :=
  ⟨oneFile_read _ _, ⟨rfl, angular_marginOk rfl (by decide)⟩⟩

/-- The hypotheses of `C57_tame_partial`, C33 and C34 hold for the same file with other children: node 1 leads to node 0 only. -/
example : ∃ (w : World) (t t' : Idx (angular32 4 2)) (bytes : List Byte), w.read "x" = some bytes ∧ bytes.length < (angular32 4 2).L.range ∧
    w.creatable "x" = true ∧
    (Idx.new (angular32 4 2) (Kiss32.new 0) 0).load .gc w "x" = .ok (.nil, t) ∧
    (Idx.new (angular32 4 2) (Kiss32.new 0) 0).load .mmap w "x" = .ok (.nil, t') ∧
    Tame (angular32 4 2) (t.mem w) t.nItems t.nNodes := by
  let bytes : List Byte := [1, 0, 0, 0] ++ List.replicate 16 0 ++ [5, 0, 0, 0] ++ List.replicate 16 0
  have e1 : Idx.scanRoots (angular32 4 2) (Block.ofList bytes) 4 1 none = .ok ([1], some 5) := by decide +kernel
  have e2 : Idx.dropDup (angular32 4 2) (Block.ofList bytes) [1] = .ok [1] := by decide +kernel
  have e3 : Idx.countNNS (angular32 4 2) (Block.ofList bytes) 5 2 = .ok 0 := by decide +kernel
  have key : ∀ bk, ∃ t, (Idx.new (angular32 4 2) (Kiss32.new 0) 0).load bk (oneFile "x" bytes) "x" = .ok (.nil, t) ∧
      t.nItems = 5 ∧ t.nNodes = 2 := by
    intro bk
    obtain ⟨_, hl⟩ := Idx.load_bytes (c := angular32 4 2) (bk := bk) (w := oneFile "x" bytes) (path := "x") (i := 0)
      (by simp [oneFile]) rfl (by decide) (Idx.new (angular32 4 2) (Kiss32.new 0) 0)
    have e0 : (angular32 4 2).L.wrap ((oneFile "x" bytes).content 0).length / (angular32 4 2).L.nodeSize = 2 := by decide +kernel
    rw [if_neg (by decide +kernel)] at hl
    rw [e0] at hl
    have e1 : Idx.scanRoots (angular32 4 2) (Block.ofList ((oneFile "x" bytes).content 0)) (2 + 2)
      (if 2 = 0 then (angular32 4 2).L.range - 1 else 2 - 1) none = .ok ([1], some 5) := e1
    simp only [e1, bind, Except.bind] at hl
    have e2 : Idx.dropDup (angular32 4 2) (Block.ofList ((oneFile "x" bytes).content 0)) [1] = .ok [1] := e2
    have e3 : Idx.countNNS (angular32 4 2) (Block.ofList ((oneFile "x" bytes).content 0)) 5 2 = .ok 0 := e3
    simp only [e2, Option.getD_some, e3] at hl
    exact ⟨_, hl, rfl, rfl⟩
  obtain ⟨t, h1, h2, h3⟩ := key .gc
  obtain ⟨t', h4, _⟩ := key .mmap
  refine ⟨oneFile "x" bytes, t, t', bytes, oneFile_read _ _, by decide +kernel, rfl, h1, h4, ?_⟩
  obtain ⟨i', bytes', g1, g2, _, _, hm, _⟩ := Idx.load_ok h1
  obtain rfl : bytes = bytes' := g2
  rw [hm, h2, h3]
  unfold Tame
  decide +kernel

end
end Annoy
