import Verif.Proof.Search
import Verif.Proof.Order
import Mathlib.Algebra.BigOperators.Group.List.Lemmas
import Mathlib.Data.List.Dedup
/-!
The search on a complete index.
-/
namespace Annoy

theorem canon_vec {c : Cfg} (hc : c.WF) {v : List c.N.V} (hv : v.length = c.L.f) :
    Node.vec c.L c.C (canon c v) 0 = v := by
  obtain ⟨w, hw, h1, _⟩ := hc.initNode
  have hoff := hc.layout.offV_ge
  conv_rhs => rw [← Node.vec_setVec (L := c.L) c.C zeros 0 v hv]
  apply Node.vec_congr
  intro j hj
  exact h1 _ _ _ (Or.inr (by omega))

theorem ItemAt.same_canon {c : Cfg} (hc : c.WF) {b : Bytes} {a : Nat} {v : List c.N.V} (h : ItemAt c b a v) :
    SameItem c b a (canon c v) 0 := by
  have hv : v.length = c.L.f := by rw [← h.vec]; simp
  refine ⟨h.vec.trans (canon_vec hc hv).symm, fun j h1 h2 => ?_⟩
  rw [h.head j h1 h2, Nat.zero_add]

theorem SameItem.refl (c : Cfg) (b : Bytes) (a : Nat) : SameItem c b a b a := ⟨rfl, fun _ _ _ => rfl⟩

/-- The distance from the query to item `i` of the index with the vectors `m`. -/
def itemDist (c : Cfg) (m : Nat → Option (List c.N.V)) (q : List c.N.V) (i : Nat) : c.N.V :=
  match m i with
  | some v => vecDist c q v
  | none => c.N.zero

/-- Memory in which a search finds its way: the trees `ts` are below `roots`, each reaches all items, item numbers
are below `n`, and the nodes below `n` are the items `m`. -/
structure Searchable (c : Cfg) (mem : Block) (n : Nat) (roots : List Nat) (m : Nat → Option (List c.N.V))
    (ts : List Tree) : Prop where
  roots : ts.map Tree.root = roots
  walk : ∀ t ∈ ts, Search.Walkable c mem n t
  below : ∀ t ∈ ts, ∀ i ∈ t.items, i < n
  slots : ∀ i, i < n → getNode c.L mem i = .ok (i * c.L.nodeSize)
  bound : ∀ i, (m i).isSome → i < n
  items : ∀ i v, m i = some v → ItemAt c mem.get (i * c.L.nodeSize) v
  gaps : ∀ i, i < n → m i = none → ndAt c.L mem.get i ≠ 1

/-- Every tree reaches all items. -/
def Complete {V : Type} (m : Nat → Option (List V)) (ts : List Tree) : Prop :=
  ∀ t ∈ ts, ∀ i, (m i).isSome → i ∈ t.items

/-- The items among the numbers `col`, each once. -/
def itemsAmong {V : Type} (m : Nat → Option (List V)) (n : Nat) (col : List Nat) : List Nat :=
  (List.range n).filter fun i => decide (i ∈ col ∧ (m i).isSome)

theorem itemsAmong_nodup {V : Type} (m : Nat → Option (List V)) (n : Nat) (col : List Nat) :
    (itemsAmong m n col).Nodup := List.nodup_range.filter _

theorem mem_itemsAmong {V : Type} {m : Nat → Option (List V)} {n : Nat} {col : List Nat} {i : Nat} :
    i ∈ itemsAmong m n col ↔ i < n ∧ i ∈ col ∧ (m i).isSome := by
  simp [itemsAmong]

/-- The margin of a stored node and the query can be computed. -/
def MarginOk (c : Cfg) (query : List c.N.V) : Prop := ∀ b a, ∃ x, c.D.margin b a query = .ok x

/-- Total number of nodes of trees. -/
def Tree.sizes (ts : List Tree) : Nat := (ts.map Tree.size).sum

namespace Search
variable {c : Cfg} {mem : Block} {n : Nat} {roots : List Nat} {m : Nat → Option (List c.N.V)} {ts : List Tree}

/-- The candidates of a search. -/
theorem candidates (hc : c.WF) (h : Searchable c mem n roots m ts) {query : List c.N.V} (hm : MarginOk c query)
    (budget : Int) {fuel : Nat} (hf : Tree.sizes ts < fuel) :
    ∃ done rest : List Tree,
      collect mem n query budget fuel (initQueue c roots) [] = .ok (done.flatMap Tree.items) ∧
      (done ++ rest.flatMap Tree.leaves).Perm (ts.flatMap Tree.leaves) ∧
      (rest = [] ∨ budget ≤ (done.flatMap Tree.items).length) := by
  have hq : (initQueue c roots).Perm ((ts.map fun t => (c.D.pqInitialValue, t)).map key) := by
    refine (initQueue_perm roots).trans ?_
    rw [← h.roots, List.map_map, List.map_map]
    exact List.Perm.refl _
  obtain ⟨done, rest, h1, h2, h3⟩ := collect_spec hc (budget := budget) (fun i => hm mem.get (i * c.L.nodeSize))
    fuel (acc := []) hq (by
      intro p hp
      obtain ⟨t, ht, rfl⟩ := List.mem_map.1 hp
      exact h.walk t ht) (by
      unfold work
      rw [List.map_map]
      exact hf)
  refine ⟨done, rest, by simpa using h1, ?_, by simpa using h3⟩
  rw [List.flatMap_map] at h2
  exact h2

theorem done_items {done rest : List Tree} (h : (done ++ rest.flatMap Tree.leaves).Perm (ts.flatMap Tree.leaves)) :
    (done.flatMap Tree.items ++ rest.flatMap Tree.items).Perm (ts.flatMap Tree.items) := by
  have h1 := h.flatMap_right Tree.items
  rw [List.flatMap_append, List.flatMap_assoc, List.flatMap_assoc] at h1
  simpa [Tree.leaves_items] using h1

theorem col_below (h : Searchable c mem n roots m ts) {done rest : List Tree}
    (hp : (done ++ rest.flatMap Tree.leaves).Perm (ts.flatMap Tree.leaves)) :
    ∀ i ∈ done.flatMap Tree.items, i < n := by
  intro i hi
  have : i ∈ ts.flatMap Tree.items := (done_items hp).subset (List.mem_append_left _ hi)
  obtain ⟨t, ht, hi⟩ := List.mem_flatMap.1 this
  exact h.below t ht i hi

theorem queryNode_ok (hc : c.WF) {query : List c.N.V} (hq : query.length = c.L.f) :
    queryNode c query = .ok (canon c query) := by
  unfold queryNode
  rw [if_pos (by rw [hq, hc.layout.size_eq])]
  rfl

/-- What a query returns for given candidates. -/
theorem run_of_collect (hc : c.WF) (hN : c.N.Lawful) (h : Searchable c mem n roots m ts) {query : List c.N.V}
    (hq : query.length = c.L.f) {k b : Int} {fuel : Nat} {ctx : Ctx c} {col : List Nat}
    (hcol : collect mem n query (if b = -1 then k * roots.length else b) fuel (initQueue c roots) [] = .ok col)
    (hlt : ∀ i ∈ col, i < n) (hfit : col.length ≤ ctx.nns.length) :
    ∃ ids ds ctx', run c fuel mem n roots query k b ctx = .ok (ids, ds, ctx') ∧
      TopK c.N c.D.normalizedDistance (itemDist c m query) (itemsAmong m n col) k.toNat ids ds ∧
      ctx'.nns.length = ctx.nns.length ∧ (ctx.dist.length = ctx.nns.length → ctx'.dist.length = ctx.dist.length) := by
  obtain ⟨hloop, hle⟩ := (loop_iff fuel (initQueue c roots) ctx.nns _ _).2 ⟨col, hcol, hfit, rfl, rfl⟩
  unfold run
  simp only [hloop, bind, Except.bind]
  rw [if_neg (by omega)]
  have htake : (col ++ ctx.nns.drop col.length).take col.length = col := List.take_left' rfl
  have hdrop : (col ++ ctx.nns.drop col.length).drop col.length = ctx.nns.drop col.length := List.drop_left' rfl
  rw [htake, hdrop, queryNode_ok hc hq]
  dsimp only
  have hsp := hc.sortIds_perm col
  obtain ⟨r, r1, r2, r3, r4⟩ := distances_spec (c := c) (mem := mem) (vn := canon c query) (c.sortIds col) none
    (hc.sortIds_sorted col) (fun j hj => h.slots j (hlt j (hsp.subset hj))) (fun x hx => by cases hx)
  rw [r1]
  dsimp only
  set middle : Int := if k < (r.length : Int) then k else r.length with hmid
  set sorted := c.partialSort r 0 middle r.length with hsorted
  have hperm : sorted.Perm r := hc.partialSort_perm r middle
  refine ⟨_, _, _, rfl, ?_, ?_, ?_⟩
  · -- every pair is an item with its distance
    have hitem : ∀ i, i ∈ r.map Prod.snd ↔ i ∈ itemsAmong m n col := by
      intro i
      rw [r3, mem_itemsAmong, hsp.mem_iff]
      constructor
      · rintro ⟨h1, h2, _⟩
        refine ⟨hlt i h1, h1, ?_⟩
        cases hmi : m i with
        | none => exact absurd h2 (h.gaps i (hlt i h1) hmi)
        | some v => rfl
      · rintro ⟨_, h1, h2⟩
        obtain ⟨v, hv⟩ := Option.isSome_iff_exists.1 h2
        exact ⟨h1, (h.items i v hv).nDesc, by simp⟩
    have hdist : ∀ p ∈ r, p = (itemDist c m query p.2, p.2) := by
      intro p hp
      have h1 := (hitem p.2).1 (List.mem_map_of_mem hp)
      obtain ⟨_, _, h2⟩ := mem_itemsAmong.1 h1
      obtain ⟨v, hv⟩ := Option.isSome_iff_exists.1 h2
      refine Prod.ext ?_ rfl
      rw [r4 p hp]
      show _ = itemDist c m query p.2
      unfold itemDist
      rw [hv]
      exact hc.distance _ _ _ _ _ _ _ _ (SameItem.refl c _ _) ((h.items p.2 v hv).same_canon hc)
    have hnd : (r.map Prod.snd).Nodup := r2.imp fun h => Nat.ne_of_lt h
    have hlen : (itemsAmong m n col).length = r.length := by
      have : (r.map Prod.snd).Perm (itemsAmong m n col) :=
        (List.perm_ext_iff_of_nodup hnd (itemsAmong_nodup _ _ _)).2 hitem
      rw [← this.length_eq, List.length_map]
    have hsnd : (sorted.map Prod.snd).Nodup := ((hperm.map Prod.snd).nodup_iff).2 hnd
    have htn : middle.toNat ≤ sorted.length := by rw [hperm.length_eq]; omega
    have hpair : ∀ p ∈ sorted.take middle.toNat, p = (itemDist c m query p.2, p.2) :=
      fun p hp => hdist p (hperm.subset (List.mem_of_mem_take hp))
    have hmap : ((sorted.take middle.toNat).map Prod.snd).map (fun i => (itemDist c m query i, i))
        = sorted.take middle.toNat := by
      rw [List.map_map]
      conv_rhs => rw [← List.map_id (sorted.take middle.toNat)]
      exact List.map_congr_left fun p hp => (hpair p hp).symm
    -- not after and different index: before
    have strict : ∀ p ∈ r, ∀ q ∈ r, c.N.Ordinary p.1 → c.N.Ordinary q.1 → p.2 ≠ q.2 → PairLe c.N p q →
        PairLt c.N p q := by
      intro p _ q _ ho1 ho2 hne hle
      rcases hN.trichotomy p.1 q.1 ho1 ho2 with h1 | h1 | h1
      · exact Or.inl h1
      · have hnot : ¬ PairLt c.N q p := by
          rw [← pairLess_iff]
          unfold PairLe at hle
          rw [hle]; simp
        rcases Nat.lt_or_gt_of_ne hne with h2 | h2
        · exact Or.inr ⟨h1, h2⟩
        · exact absurd (Or.inr ⟨hN.eq_symm _ _ h1, h2⟩) hnot
      · have hnot : ¬ PairLt c.N q p := by
          rw [← pairLess_iff]
          unfold PairLe at hle
          rw [hle]; simp
        exact absurd (Or.inl h1) hnot
    have hord : (∀ i ∈ itemsAmong m n col, c.N.Ordinary (itemDist c m query i)) → ∀ p ∈ r, c.N.Ordinary p.1 := by
      intro ho p hp
      rw [hdist p hp]
      exact ho _ ((hitem p.2).1 (List.mem_map_of_mem hp))
    -- the partial sort, also for a negative number of results
    have hsort : (∀ p ∈ r, c.N.Ordinary p.1) → (sorted.take middle.toNat).Pairwise (PairLe c.N) ∧
        ∀ p ∈ sorted.take middle.toNat, ∀ q ∈ sorted.drop middle.toNat, PairLe c.N p q := by
      intro ho
      by_cases hk : 0 ≤ middle
      · obtain ⟨mm, hmm⟩ := Int.eq_ofNat_of_zero_le hk
        have := hc.partialSort_sorted r mm ho (by
          have : middle ≤ r.length := by omega
          omega)
        rw [hsorted, hmm]
        exact this
      · have : middle.toNat = 0 := by omega
        rw [this]
        simp
    refine ⟨?_, ?_, ?_, ?_, ?_, ?_⟩
    · rw [List.length_map, List.length_take, hlen, hperm.length_eq]
      omega
    · exact hsnd.sublist ((List.take_sublist _ _).map Prod.snd)
    · intro i hi
      obtain ⟨p, hp, rfl⟩ := List.mem_map.1 hi
      exact (hitem p.2).1 (List.mem_map_of_mem (hperm.subset (List.mem_of_mem_take hp)))
    · rw [List.map_map]
      apply List.map_congr_left
      intro p hp
      show _ = c.D.normalizedDistance (itemDist c m query p.2)
      rw [congrArg Prod.fst (hpair p hp)]
    · intro ho
      rw [hmap]
      have h1 := (hsort (hord ho)).1
      have h2 : (sorted.take middle.toNat).Pairwise (fun p q => p.2 ≠ q.2) := by
        have := hsnd.sublist ((List.take_sublist middle.toNat sorted).map Prod.snd)
        exact List.pairwise_map.1 this
      refine List.Pairwise.imp_of_mem ?_ (h1.and h2)
      intro p q hp hq hpq
      have hp' := hperm.subset (List.mem_of_mem_take hp)
      have hq' := hperm.subset (List.mem_of_mem_take hq)
      exact strict p hp' q hq' (hord ho p hp') (hord ho q hq') hpq.2 hpq.1
    · intro ho i hi j hj hni
      obtain ⟨p, hp, rfl⟩ := List.mem_map.1 hi
      obtain ⟨q, hq, rfl⟩ := List.mem_map.1 ((hitem j).2 hj)
      have hp' := hperm.subset (List.mem_of_mem_take hp)
      rw [← hdist p hp', ← hdist q hq]
      have hqs : q ∈ sorted.drop middle.toNat := by
        have : q ∈ sorted.take middle.toNat ++ sorted.drop middle.toNat := by
          rw [List.take_append_drop]; exact hperm.symm.subset hq
        rcases List.mem_append.1 this with h1 | h1
        · exact absurd (List.mem_map_of_mem h1) hni
        · exact h1
      refine strict p hp' q hq (hord ho p hp') (hord ho q hq) ?_ ((hsort (hord ho)).2 p hp q hqs)
      intro e
      exact hni (by rw [← e]; exact List.mem_map_of_mem hp)
  · simp only [List.length_append, List.length_drop, hsp.length_eq]
    omega
  · intro hd
    simp only [List.length_append, List.length_drop, hperm.length_eq]
    have hr : r.length ≤ col.length := by
      have hnd : (r.map Prod.snd).Nodup := r2.imp fun h => Nat.ne_of_lt h
      have := (List.subperm_of_subset hnd (fun i hi => hsp.subset ((r3 i).1 hi).1)).length_le
      rwa [List.length_map] at this
    omega

/-- The pairs (distance, index) a query returns when it looked at the items `S`. -/
def best (c : Cfg) (m : Nat → Option (List c.N.V)) (query : List c.N.V) (k : Int) (S : List Nat) : List (c.N.V × Nat) :=
  let r := S.map fun i => (itemDist c m query i, i)
  let middle : Int := if k < r.length then k else r.length
  (c.partialSort r 0 middle r.length).take middle.toNat

/-- The answer is determined by the items among the candidates. -/
theorem run_best (hc : c.WF) (h : Searchable c mem n roots m ts) {query : List c.N.V}
    (hq : query.length = c.L.f) {k b : Int} {fuel : Nat} {ctx ctx' : Ctx c} {col ids : List Nat} {ds : List c.N.V}
    (hcol : collect mem n query (if b = -1 then k * roots.length else b) fuel (initQueue c roots) [] = .ok col)
    (hlt : ∀ i ∈ col, i < n) (hfit : col.length ≤ ctx.nns.length)
    (hr : run c fuel mem n roots query k b ctx = .ok (ids, ds, ctx')) :
    ids = (best c m query k (itemsAmong m n col)).map Prod.snd ∧
      ds = (best c m query k (itemsAmong m n col)).map fun p => c.D.normalizedDistance p.1 := by
  obtain ⟨hloop, hle⟩ := (loop_iff fuel (initQueue c roots) ctx.nns _ _).2 ⟨col, hcol, hfit, rfl, rfl⟩
  unfold run at hr
  simp only [hloop, bind, Except.bind] at hr
  rw [if_neg (by omega)] at hr
  have htake : (col ++ ctx.nns.drop col.length).take col.length = col := List.take_left' rfl
  rw [htake, queryNode_ok hc hq] at hr
  dsimp only at hr
  have hsp := hc.sortIds_perm col
  obtain ⟨r, r1, r2, r3, r4⟩ := distances_spec (c := c) (mem := mem) (vn := canon c query) (c.sortIds col) none
    (hc.sortIds_sorted col) (fun j hj => h.slots j (hlt j (hsp.subset hj))) (fun x hx => by cases hx)
  rw [r1] at hr
  dsimp only at hr
  have hitem : ∀ i, i ∈ r.map Prod.snd ↔ i ∈ itemsAmong m n col := by
    intro i
    rw [r3, mem_itemsAmong, hsp.mem_iff]
    constructor
    · rintro ⟨h1, h2, _⟩
      refine ⟨hlt i h1, h1, ?_⟩
      cases hmi : m i with
      | none => exact absurd h2 (h.gaps i (hlt i h1) hmi)
      | some v => rfl
    · rintro ⟨_, h1, h2⟩
      obtain ⟨v, hv⟩ := Option.isSome_iff_exists.1 h2
      exact ⟨h1, (h.items i v hv).nDesc, by simp⟩
  have hdist : ∀ p ∈ r, p = (itemDist c m query p.2, p.2) := by
    intro p hp
    have h1 := (hitem p.2).1 (List.mem_map_of_mem hp)
    obtain ⟨_, _, h2⟩ := mem_itemsAmong.1 h1
    obtain ⟨v, hv⟩ := Option.isSome_iff_exists.1 h2
    refine Prod.ext ?_ rfl
    rw [r4 p hp]
    show _ = itemDist c m query p.2
    unfold itemDist
    rw [hv]
    exact hc.distance _ _ _ _ _ _ _ _ (SameItem.refl c _ _) ((h.items p.2 v hv).same_canon hc)
  have hids : r.map Prod.snd = itemsAmong m n col := by
    have hs : (itemsAmong m n col).Pairwise (· < ·) := List.pairwise_lt_range.filter _
    have hp : (r.map Prod.snd).Perm (itemsAmong m n col) :=
      (List.perm_ext_iff_of_nodup (r2.imp fun h => Nat.ne_of_lt h) (itemsAmong_nodup _ _ _)).2 hitem
    exact hp.eq_of_pairwise (fun a b _ _ h1 h2 => absurd h1 (by omega)) r2 hs
  have hreq : r = (itemsAmong m n col).map fun i => (itemDist c m query i, i) := by
    rw [← hids, List.map_map]
    conv_lhs => rw [← List.map_id r]
    exact List.map_congr_left fun p hp => hdist p hp
  rw [hreq] at hr
  cases hr
  exact ⟨rfl, rfl⟩

/-- A query that answers found candidates that fit into the context. -/
theorem collect_of_run {query : List c.N.V} {k b : Int} {fuel : Nat} {ctx : Ctx c} {x}
    (h : run c fuel mem n roots query k b ctx = .ok x) :
    ∃ col, collect mem n query (if b = -1 then k * roots.length else b) fuel (initQueue c roots) [] = .ok col ∧
      col.length ≤ ctx.nns.length := by
  unfold run at h
  simp only [bind, Except.bind] at h
  split at h
  · cases h
  · next v hv =>
    obtain ⟨buf, cnt⟩ := v
    dsimp only at h
    split at h
    · cases h
    · next hle =>
      obtain ⟨col, h1, h2, _⟩ := (loop_iff fuel (initQueue c roots) ctx.nns buf cnt).1 ⟨hv, by omega⟩
      exact ⟨col, h1, h2⟩

/-- Whatever the buffer: the loop finds the candidates or panics for lack of room. -/
theorem loop_room {query : List c.N.V} {budget : Int} (fuel : Nat) : ∀ {q acc col} {buf : List Nat},
    collect mem n query budget fuel q acc = .ok col →
    (∃ buf', loop c mem n query budget fuel q buf acc.length = .ok (buf', col.length)) ∨
    ∃ msg, loop c mem n query budget fuel q buf acc.length = .error (.panic msg) := by
  induction fuel with
  | zero => intro q acc col buf h; cases h
  | succ fuel ih =>
    intro q acc col buf h
    unfold collect at h
    unfold loop
    split at h
    · next h1 =>
      rw [if_pos h1]
      split at h
      · next h2 => rw [h2]; cases h; exact Or.inl ⟨_, rfl⟩
      · next d i q' h2 =>
        rw [h2]
        simp only [bind, Except.bind] at h ⊢
        split at h
        · cases h
        · next a ha =>
          split at h
          · next h3 =>
            rw [if_pos h3]
            split
            · have := ih (buf := buf.set acc.length i) h
              rwa [List.length_append, List.length_singleton] at this
            · exact Or.inr ⟨_, rfl⟩
          · next h3 =>
            rw [if_neg h3]
            split at h
            · next h4 =>
              rw [if_pos h4]
              split
              · have := ih (buf := copyAt buf acc.length (Node.getChildren c.L mem.get a)) h
                rwa [List.length_append, Node.getChildren_length] at this
              · exact Or.inr ⟨_, rfl⟩
            · next h4 =>
              rw [if_neg h4]
              split at h
              · cases h
              · next x hx => exact ih h
    · next h1 => rw [if_neg h1]; cases h; exact Or.inl ⟨_, rfl⟩

/-- If the candidates do not fit, the query panics. -/
theorem run_panic {query : List c.N.V} {k b : Int} {fuel : Nat} {ctx : Ctx c} {col : List Nat}
    (hcol : collect mem n query (if b = -1 then k * roots.length else b) fuel (initQueue c roots) [] = .ok col)
    (hfit : ctx.nns.length < col.length) : ∃ msg, run c fuel mem n roots query k b ctx = .error (.panic msg) := by
  unfold run
  rcases loop_room (buf := ctx.nns) fuel hcol with ⟨buf', h⟩ | ⟨msg, h⟩
  · have h' : loop c mem n query (if b = -1 then k * roots.length else b) fuel (initQueue c roots) ctx.nns 0
        = .ok (buf', col.length) := h
    have hl := (loop_bounds fuel h').2
    simp only [h', bind, Except.bind]
    rw [if_pos (by omega)]
    exact ⟨_, rfl⟩
  · have h' : loop c mem n query (if b = -1 then k * roots.length else b) fuel (initQueue c roots) ctx.nns 0
        = .error (.panic msg) := h
    simp only [h', bind, Except.bind]
    exact ⟨_, rfl⟩

/-! ### which items are found -/

/-- Trees of which the search needs to see but few leaves to know all items: each has at most `l` entries, or each is one
bucket. -/
def Uniform (l : Nat) (ts : List Tree) : Prop :=
  (∀ t ∈ ts, t.items.length ≤ l) ∨ ∀ t ∈ ts, t.leaves = [t]

theorem flatMap_length_le {l : Nat} {ts : List Tree} (h : ∀ t ∈ ts, t.items.length ≤ l) :
    (ts.flatMap Tree.items).length ≤ ts.length * l := by
  induction ts with
  | nil => simp
  | cons t ts ih =>
    have h1 := h t (by simp)
    have h2 := ih fun t ht => h t (by simp [ht])
    simp only [List.flatMap_cons, List.length_append, List.length_cons]
    rw [Nat.add_mul]
    omega

theorem count_ge {ts : List Tree} {i : Nat} (h : ∀ t ∈ ts, i ∈ t.items) :
    ts.length ≤ (ts.flatMap Tree.items).count i := by
  induction ts with
  | nil => simp
  | cons t ts ih =>
    have h1 := List.count_pos_iff.2 (h t (by simp))
    have h2 := ih fun t ht => h t (by simp [ht])
    simp only [List.flatMap_cons, List.count_append, List.length_cons]
    omega

theorem count_le {ts : List Tree} {i : Nat} (h : ∀ t ∈ ts, t.items.Nodup) :
    (ts.flatMap Tree.items).count i ≤ ts.length := by
  induction ts with
  | nil => simp
  | cons t ts ih =>
    have h1 := List.nodup_iff_count_le_one.1 (h t (by simp)) i
    have h2 := ih fun t ht => h t (by simp [ht])
    simp only [List.flatMap_cons, List.count_append, List.length_cons]
    omega

theorem leaves_bucket {ts : List Tree} (h : ∀ t ∈ ts, t.leaves = [t]) : ts.flatMap Tree.leaves = ts := by
  induction ts with
  | nil => rfl
  | cons t ts ih =>
    rw [List.flatMap_cons, h t (by simp), ih fun t ht => h t (by simp [ht])]
    rfl

/-- When every tree is one bucket, the first one has everything. -/
theorem bucket_all (hall : Complete m ts) (hb : ∀ t ∈ ts, t.leaves = [t]) {done rest : List Tree} {budget : Int}
    (hp : (done ++ rest.flatMap Tree.leaves).Perm (ts.flatMap Tree.leaves))
    (hr : rest = [] ∨ budget ≤ (done.flatMap Tree.items).length) (hT : ts ≠ []) (h1 : 1 ≤ budget) {i : Nat}
    (hi : (m i).isSome) : i ∈ done.flatMap Tree.items := by
  rw [leaves_bucket hb] at hp
  have hd : done ≠ [] := by
    rintro rfl
    rcases hr with rfl | hr
    · have := hp.length_eq
      rw [List.flatMap_nil, List.append_nil, List.length_nil] at this
      exact hT (List.length_eq_zero_iff.1 this.symm)
    · simp at hr; omega
  obtain ⟨t, ht⟩ := List.exists_mem_of_ne_nil done hd
  exact List.mem_flatMap.2 ⟨t, ht, hall t (hp.subset (List.mem_append_left _ ht)) i hi⟩

/-- With a budget of `(number of trees) * (l - 1) + 1` no item is missed. -/
theorem all_found (hall : Complete m ts) {l : Nat} (hu : Uniform l ts) {done rest : List Tree} {budget : Int}
    (hp : (done ++ rest.flatMap Tree.leaves).Perm (ts.flatMap Tree.leaves))
    (hr : rest = [] ∨ budget ≤ (done.flatMap Tree.items).length) (hT : ts ≠ [])
    (hb : ((ts.length * (l - 1) + 1 : Nat) : Int) ≤ budget) {i : Nat} (hi : (m i).isSome) :
    i ∈ done.flatMap Tree.items := by
  rcases hu with hu | hu
  · have hd := done_items hp
    have hl := flatMap_length_le hu
    have hc : ts.length ≤ _ := count_ge fun t ht => hall t ht i hi
    rw [← hd.length_eq, List.length_append] at hl
    rw [← hd.count_eq, List.count_append] at hc
    have hTl : 0 < ts.length := List.length_pos_iff.2 hT
    apply List.count_pos_iff.1
    rcases hr with rfl | hr
    · simp at hc; omega
    · have h1 := List.count_le_length (a := i) (l := rest.flatMap Tree.items)
      have : ts.length * l ≤ ts.length * (l - 1) + ts.length := by
        rw [← Nat.mul_succ]
        exact Nat.mul_le_mul_left _ (by omega)
      omega
  · exact bucket_all hall hu hp hr hT (by omega) hi

theorem sum_count_le (l : List Nat) (T : Nat) (h : ∀ i, l.count i ≤ T) : l.length ≤ T * l.dedup.length := by
  have h1 := List.sum_map_count_dedup_eq_length l
  rw [← h1]
  have : ∀ d : List Nat, (d.map fun x => l.count x).sum ≤ T * d.length := by
    intro d
    induction d with
    | nil => simp
    | cons a d ih =>
      have := h a
      simp only [List.map_cons, List.sum_cons, List.length_cons, Nat.mul_add]
      omega
  exact this _

/-- With the default budget enough different items are found. -/
theorem enough_found (h : Searchable c mem n roots m ts) (hall : Complete m ts) {l : List Nat} (hl : l.Nodup)
    (hl' : ∀ i, i ∈ l ↔ (m i).isSome)
    (hu : (∀ t ∈ ts, t.items.Perm l) ∨ ∀ t ∈ ts, t.leaves = [t]) {done rest : List Tree} {k : Nat}
    (hp : (done ++ rest.flatMap Tree.leaves).Perm (ts.flatMap Tree.leaves))
    (hr : rest = [] ∨ ((k * ts.length : Nat) : Int) ≤ (done.flatMap Tree.items).length) (hT : ts ≠ []) :
    min k l.length ≤ (itemsAmong m n (done.flatMap Tree.items)).length := by
  have hTl : 0 < ts.length := List.length_pos_iff.2 hT
  -- all items found
  have full : (∀ i, (m i).isSome → i ∈ done.flatMap Tree.items) →
      min k l.length ≤ (itemsAmong m n (done.flatMap Tree.items)).length := by
    intro hf
    have : l.length ≤ (itemsAmong m n (done.flatMap Tree.items)).length := by
      refine (List.subperm_of_subset hl fun i hi => ?_).length_le
      have := (hl' i).1 hi
      exact mem_itemsAmong.2 ⟨h.bound i this, hf i this, this⟩
    omega
  by_cases hk : k = 0
  · omega
  rcases hu with hu | hu
  · rcases hr with rfl | hr
    · apply full
      intro i hi
      have hd := done_items hp
      simp only [List.flatMap_nil, List.append_nil] at hd
      obtain ⟨t, ht⟩ := List.exists_mem_of_ne_nil ts hT
      exact hd.symm.subset (List.mem_flatMap.2 ⟨t, ht, hall t ht i hi⟩)
    · have hd := done_items hp
      have hcnt : ∀ i, (done.flatMap Tree.items).count i ≤ ts.length := by
        intro i
        have h1 := count_le (i := i) fun t ht => ((hu t ht).nodup_iff).2 hl
        rw [← hd.count_eq, List.count_append] at h1
        omega
      have h1 := sum_count_le _ _ hcnt
      have h2 : (done.flatMap Tree.items).dedup.length ≤
          (itemsAmong m n (done.flatMap Tree.items)).length := by
        refine (List.subperm_of_subset (List.nodup_dedup _) fun i hi => ?_).length_le
        have hi := List.mem_dedup.1 hi
        obtain ⟨t, ht, hi'⟩ := List.mem_flatMap.1 (hd.subset (List.mem_append_left _ hi))
        have := (hl' i).1 ((hu t ht).subset hi')
        exact mem_itemsAmong.2 ⟨h.bound i this, hi, this⟩
      have h3 : k * ts.length ≤ ts.length * (done.flatMap Tree.items).dedup.length := by omega
      rw [Nat.mul_comm k] at h3
      have := Nat.le_of_mul_le_mul_left h3 hTl
      omega
  · apply full
    intro i hi
    refine bucket_all hall hu hp hr hT ?_ hi
    have : 1 ≤ k * ts.length := Nat.one_le_iff_ne_zero.2 (Nat.mul_ne_zero hk (by omega))
    omega

end Search

/-! ### comparing right answers -/
namespace TopK
variable {N : Num} {norm : N.V → N.V} {δ : Nat → N.V} {S S' : List Nat} {k k' : Nat} {ids ids' : List Nat}
  {ds ds' : List N.V}

theorem pair_lt (h : TopK N norm δ S k ids ds) (ho : ∀ i ∈ S, N.Ordinary (δ i)) {a b : Nat} (hab : a < b)
    (hb : b < ids.length) : PairLt N (δ ids[a], ids[a]) (δ ids[b], ids[b]) := by
  have := List.pairwise_iff_getElem.1 (h.sorted ho) a b (by simp; omega) (by simpa using hb) hab
  simpa using this

/-- More candidates: position by position, nothing gets worse. -/
theorem mono (hN : N.Lawful) (h : TopK N norm δ S k ids ds) (h' : TopK N norm δ S' k' ids' ds') (hS : ∀ i ∈ S, i ∈ S')
    (ho : ∀ i ∈ S', N.Ordinary (δ i)) {a : Nat} (ha : a < ids.length) (ha' : a < ids'.length) :
    ¬ PairLt N (δ ids[a], ids[a]) (δ ids'[a], ids'[a]) := by
  intro hlt
  have ho1 : ∀ i ∈ S, N.Ordinary (δ i) := fun i hi => ho i (hS i hi)
  -- everything up to position `a` comes before
  have hbefore : ∀ x ∈ ids.take (a + 1), PairLt N (δ x, x) (δ ids'[a], ids'[a]) := by
    intro x hx
    obtain ⟨b, hb, rfl⟩ := List.mem_iff_getElem.1 hx
    simp only [List.length_take] at hb
    rw [List.getElem_take]
    by_cases e : b = a
    · subst e; exact hlt
    · exact pair_trans hN _ _ _ (h.pair_lt ho1 (by omega : b < a) ha) hlt
  have hsub : ∀ x ∈ ids.take (a + 1), x ∈ ids'.take a := by
    intro x hx
    have hx1 := hbefore x hx
    have hxS : x ∈ S' := hS x (h.sub x (List.mem_of_mem_take hx))
    have hx2 : x ∈ ids' := by
      by_contra hcon
      have := h'.least ho ids'[a] (List.getElem_mem ha') x hxS hcon
      exact pair_irrefl hN _ (pair_trans hN _ _ _ hx1 this)
    obtain ⟨b, hb, rfl⟩ := List.mem_iff_getElem.1 hx2
    rcases Nat.lt_trichotomy b a with hba | hba | hba
    · refine List.mem_iff_getElem.2 ⟨b, by simp; omega, ?_⟩
      rw [List.getElem_take]
    · subst hba
      exact absurd hx1 (pair_irrefl hN _)
    · exact absurd (pair_trans hN _ _ _ hx1 (h'.pair_lt ho hba hb)) (pair_irrefl hN _)
  have hnd : (ids.take (a + 1)).Nodup := h.nodup.sublist (List.take_sublist _ _)
  have := (List.subperm_of_subset hnd hsub).length_le
  simp only [List.length_take] at this
  omega

/-- There is one right answer. -/
theorem unique (hN : N.Lawful) (h : TopK N norm δ S k ids ds) (h' : TopK N norm δ S' k ids' ds')
    (hS : S.Perm S') (ho : ∀ i ∈ S, N.Ordinary (δ i)) : ids = ids' ∧ ds = ds' := by
  have ho' : ∀ i ∈ S', N.Ordinary (δ i) := fun i hi => ho i (hS.symm.subset hi)
  have hlen : ids.length = ids'.length := by rw [h.length, h'.length, hS.length_eq]
  have e : ids = ids' := by
    apply List.ext_getElem hlen
    intro a h1 h2
    by_contra hne
    have c1 := h.mono hN h' (fun i hi => hS.subset hi) ho' h1 h2
    have c2 := h'.mono hN h (fun i hi => hS.symm.subset hi) ho h2 h1
    rcases hN.trichotomy (δ ids[a]) (δ ids'[a]) (ho _ (h.sub _ (List.getElem_mem _)))
      (ho' _ (h'.sub _ (List.getElem_mem _))) with h3 | h3 | h3
    · exact c1 (Or.inl h3)
    · rcases Nat.lt_or_gt_of_ne hne with h4 | h4
      · exact c1 (Or.inr ⟨h3, h4⟩)
      · exact c2 (Or.inr ⟨hN.eq_symm _ _ h3, h4⟩)
    · exact c2 (Or.inl h3)
  subst e
  exact ⟨rfl, by rw [h.dists, h'.dists]⟩

end TopK

theorem scanInsert_perm (N : Num) (δ : Nat → N.V) (i : Nat) (l : List Nat) : (scanInsert N δ i l).Perm (i :: l) := by
  induction l with
  | nil => exact List.Perm.refl _
  | cons j js ih =>
    unfold scanInsert
    split
    · exact List.Perm.refl _
    · exact (List.Perm.cons j ih).trans (List.Perm.swap i j js)

theorem scan_perm (N : Num) (δ : Nat → N.V) (S : List Nat) : (S.foldr (scanInsert N δ) []).Perm S := by
  induction S with
  | nil => exact List.Perm.refl _
  | cons i S ih => exact (scanInsert_perm N δ i _).trans (List.Perm.cons i ih)

theorem scanInsert_sorted {N : Num} (hN : N.Lawful) {δ : Nat → N.V} {i : Nat} {l : List Nat}
    (hi : N.Ordinary (δ i)) (ho : ∀ j ∈ l, N.Ordinary (δ j)) (hni : i ∉ l)
    (h : l.Pairwise fun a b => PairLt N (δ a, a) (δ b, b)) :
    (scanInsert N δ i l).Pairwise fun a b => PairLt N (δ a, a) (δ b, b) := by
  induction l with
  | nil => exact List.pairwise_singleton _ _
  | cons j js ih =>
    obtain ⟨h1, h2⟩ := List.pairwise_cons.1 h
    unfold scanInsert
    split
    · next hlt =>
      refine List.pairwise_cons.2 ⟨?_, h⟩
      intro x hx
      rcases List.mem_cons.1 hx with rfl | hx
      · exact hlt
      · exact pair_trans hN _ _ _ hlt (h1 x hx)
    · next hlt =>
      refine List.pairwise_cons.2 ⟨?_, ih (fun j hj => ho j (by simp [hj])) (fun h => hni (by simp [h])) h2⟩
      intro x hx
      rcases List.mem_cons.1 ((scanInsert_perm N δ i js).subset hx) with rfl | hx
      · have hne : x ≠ j := fun e => hni (by simp [e])
        rcases hN.trichotomy (δ x) (δ j) hi (ho j (by simp)) with h3 | h3 | h3
        · exact absurd (Or.inl h3) hlt
        · rcases Nat.lt_or_gt_of_ne hne with h4 | h4
          · exact absurd (Or.inr ⟨h3, h4⟩) hlt
          · exact Or.inr ⟨hN.eq_symm _ _ h3, h4⟩
        · exact Or.inl h3
      · exact h1 x hx

theorem scan_sorted {N : Num} (hN : N.Lawful) {δ : Nat → N.V} (S : List Nat) (hS : S.Nodup)
    (ho : ∀ i ∈ S, N.Ordinary (δ i)) :
    (S.foldr (scanInsert N δ) []).Pairwise fun a b => PairLt N (δ a, a) (δ b, b) := by
  induction S with
  | nil => exact List.Pairwise.nil
  | cons i S ih =>
    obtain ⟨h1, h2⟩ := List.nodup_cons.1 hS
    exact scanInsert_sorted hN (ho i (by simp))
      (fun j hj => ho j (by simp [(scan_perm N δ S).subset hj]))
      (fun h => h1 ((scan_perm N δ S).subset h)) (ih h2 fun j hj => ho j (by simp [hj]))

/-- A linear scan is a right answer. -/
theorem nearest_topK {N : Num} (hN : N.Lawful) (norm : N.V → N.V) {δ : Nat → N.V} {S : List Nat} (hS : S.Nodup)
    (ho : ∀ i ∈ S, N.Ordinary (δ i)) (k : Nat) :
    TopK N norm δ S k (nearest N δ S k) ((nearest N δ S k).map fun i => norm (δ i)) := by
  have hp := scan_perm N δ S
  have hs := scan_sorted hN S hS ho
  refine ⟨?_, ?_, ?_, rfl, ?_, ?_⟩
  · simp [nearest, hp.length_eq]
  · exact (hp.nodup_iff.2 hS).sublist (List.take_sublist _ _)
  · intro i hi
    exact hp.subset (List.mem_of_mem_take hi)
  · intro _
    exact List.pairwise_map.2 (hs.sublist (List.take_sublist _ _))
  · intro _ i hi j hj hni
    have hj' := hp.symm.subset hj
    unfold nearest at hi hni
    rw [← List.take_append_drop k (S.foldr (scanInsert N δ) [])] at hs hj'
    rcases List.mem_append.1 hj' with h1 | h1
    · exact absurd h1 hni
    · exact (List.pairwise_append.1 hs).2.2 i hi j h1

end Annoy
