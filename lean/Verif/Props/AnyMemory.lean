import Verif.Props.Pages
import Verif.Props.Garbage
/-!
# Answers out of any memory (C124)

Nothing is known about the memory here: it may be a file of someone else, a truncated or a damaged one.  A search of such a memory may fault
or go on forever (C57).  If it answers, then the answer is right for what the memory holds.
-/
namespace Annoy

namespace Search
variable {c : Cfg} {mem : Block} {n : Nat} {roots : List Nat}

/-- The node number `j` lies inside of the memory and says that it is an item (its number of descendants is 1). -/
def SaysItem (c : Cfg) (mem : Block) (j : Nat) : Prop :=
  c.L.addr j + c.L.nodeSize ≤ mem.size ∧ Node.nDesc c.L mem.get (c.L.addr j) = 1

/-- The distance from the query to whatever the node number `j` holds as its vector. -/
def storedDist (c : Cfg) (mem : Block) (query : List c.N.V) (j : Nat) : c.N.V :=
  c.D.distance (c.D.initNode (Node.setVec c.L c.C zeros 0 query) 0) 0 mem.get (c.L.addr j)

/-- The distance loop on an ascending list, when it comes to its end. -/
theorem distances_any {vn : Bytes} (l : List Nat) : ∀ (last : Option Nat) (r : List (c.N.V × Nat)), l.Pairwise (· ≤ ·) →
    (∀ x, last = some x → ∀ j ∈ l, x ≤ j) → distances c mem vn last l = .ok r → (r.map Prod.snd).Pairwise (· < ·) ∧
      (∀ j, j ∈ r.map Prod.snd ↔ j ∈ l ∧ SaysItem c mem j ∧ last ≠ some j) ∧
      ∀ p ∈ r, p.1 = c.D.distance vn 0 mem.get (c.L.addr p.2) := by
  induction l with
  | nil =>
    intro last r _ _ h
    unfold distances at h
    cases h
    exact ⟨by simp, by simp, by simp⟩
  | cons j l ih =>
    intro last r hs hl h
    rw [List.pairwise_cons] at hs
    unfold distances at h
    by_cases h1 : last = some j
    · rw [if_pos h1] at h
      obtain ⟨r2, r3, r4⟩ := ih last r hs.2 (fun x hx i hi => hl x hx i (by simp [hi])) h
      refine ⟨r2, fun i => ?_, r4⟩
      rw [r3]
      constructor
      · rintro ⟨a, b⟩; exact ⟨by simp [a], b⟩
      · rintro ⟨a, b, d⟩
        rcases List.mem_cons.1 a with rfl | a
        · exact absurd h1 d
        · exact ⟨a, b, d⟩
    · rw [if_neg h1] at h
      have hlast : ∀ i ∈ l, i ≠ j → last ≠ some i := by
        intro i hi hne e
        have a1 := hl i e j (by simp)
        have a2 := hs.1 i hi
        omega
      unfold getNode at h
      by_cases hin : c.L.addr j + c.L.nodeSize ≤ mem.size
      · rw [if_pos hin] at h
        simp only [bind, Except.bind] at h
        cases hd : distances c mem vn (some j) l with
        | error e => rw [hd] at h; cases h
        | ok rest =>
          rw [hd] at h
          dsimp only at h
          obtain ⟨r2, r3, r4⟩ := ih (some j) rest hs.2 (fun x hx i hi => by cases hx; exact hs.1 i hi) hd
          by_cases hnd : Node.nDesc c.L mem.get (c.L.addr j) = 1
          · rw [if_pos hnd] at h
            cases h
            refine ⟨?_, fun i => ?_, ?_⟩
            · rw [List.map_cons, List.pairwise_cons]
              refine ⟨fun i hi => ?_, r2⟩
              obtain ⟨b1, b2, b3⟩ := (r3 i).1 hi
              have := hs.1 i b1
              have : j ≠ i := fun e => b3 (by rw [e])
              show j < i
              omega
            · rw [List.map_cons, List.mem_cons, r3]
              constructor
              · rintro (rfl | ⟨b1, b2, b3⟩)
                · exact ⟨by simp, ⟨hin, hnd⟩, h1⟩
                · exact ⟨by simp [b1], b2, hlast i b1 fun e => b3 (by rw [e])⟩
              · rintro ⟨b1, b2, b3⟩
                by_cases e : i = j
                · exact Or.inl e
                · rcases List.mem_cons.1 b1 with b1 | b1
                  · exact Or.inl b1
                  · exact Or.inr ⟨b1, b2, fun h => e (Option.some.inj h).symm⟩
            · intro p hp
              rcases List.mem_cons.1 hp with rfl | hp
              · rfl
              · exact r4 p hp
          · rw [if_neg hnd] at h
            cases h
            refine ⟨r2, fun i => ?_, r4⟩
            rw [r3]
            constructor
            · rintro ⟨b1, b2, b3⟩
              exact ⟨by simp [b1], b2, hlast i b1 fun e => b3 (by rw [e])⟩
            · rintro ⟨b1, b2, b3⟩
              rcases List.mem_cons.1 b1 with rfl | b1
              · exact absurd b2.2 hnd
              · exact ⟨b1, b2, fun h => hnd (by rw [Option.some.inj h]; exact b2.2)⟩
      · rw [if_neg hin] at h
        cases h

/-- The parts of a search that answers: the collected numbers, their distances, the first of them. -/
theorem run_parts {query : List c.N.V} {k b : Int} {fuel : Nat} {ctx o : Ctx c} {ids : List Nat} {ds : List c.N.V}
    (h : run c fuel mem n roots query k b ctx = .ok (ids, ds, o)) :
    ∃ col r, collect mem n query (if b = -1 then k * roots.length else b) fuel (initQueue c roots) [] = .ok col ∧
      distances c mem (c.D.initNode (Node.setVec c.L c.C zeros 0 query) 0) none (c.sortIds col) = .ok r ∧
      ids = ((c.partialSort r 0 (if k < (r.length : Int) then k else r.length) r.length).take
        (if k < (r.length : Int) then k else (r.length : Int)).toNat).map Prod.snd ∧
      ds = ((c.partialSort r 0 (if k < (r.length : Int) then k else r.length) r.length).take
        (if k < (r.length : Int) then k else (r.length : Int)).toNat).map fun p => c.D.normalizedDistance p.1 := by
  unfold run at h
  simp only [bind, Except.bind] at h
  split at h
  · cases h
  · next v hv =>
    obtain ⟨buf, cnt⟩ := v
    dsimp only at h
    split at h
    · cases h
    · next hcnt =>
      obtain ⟨col, hcol, -, rfl, rfl⟩ := (loop_iff fuel (initQueue c roots) ctx.nns buf cnt).1 ⟨hv, by omega⟩
      rw [List.take_left' rfl] at h
      split at h
      · cases h
      · next vn hvn =>
        unfold queryNode at hvn
        split at hvn
        · cases hvn
          split at h
          · cases h
          · next r hd =>
            simp only [Except.ok.injEq, Prod.mk.injEq] at h
            obtain ⟨rfl, rfl, -⟩ := h
            exact ⟨col, r, hcol, hd, rfl, rfl⟩
        · cases hvn

/-- The first of some pairs of distance and number. -/
theorem topK_pairs (hc : c.WF) (hN : c.N.Lawful) {r : List (c.N.V × Nat)} {δ : Nat → c.N.V} {S : List Nat} (hnd : (r.map Prod.snd).Nodup)
    (hS : S.Nodup) (hitem : ∀ i, i ∈ r.map Prod.snd ↔ i ∈ S) (hdist : ∀ p ∈ r, p = (δ p.2, p.2)) (k : Int) :
    TopK c.N c.D.normalizedDistance δ S k.toNat
      (((c.partialSort r 0 (if k < (r.length : Int) then k else r.length) r.length).take
        (if k < (r.length : Int) then k else (r.length : Int)).toNat).map Prod.snd)
      (((c.partialSort r 0 (if k < (r.length : Int) then k else r.length) r.length).take
        (if k < (r.length : Int) then k else (r.length : Int)).toNat).map fun p => c.D.normalizedDistance p.1) := by
  set middle : Int := if k < (r.length : Int) then k else r.length with hmid
  set sorted := c.partialSort r 0 middle r.length with hsorted
  have hperm : sorted.Perm r := hc.partialSort_perm r middle
  have hlen : (S).length = r.length := by
    have : (r.map Prod.snd).Perm (S) :=
      (List.perm_ext_iff_of_nodup hnd hS).2 hitem
    rw [← this.length_eq, List.length_map]
  have hsnd : (sorted.map Prod.snd).Nodup := ((hperm.map Prod.snd).nodup_iff).2 hnd
  have htn : middle.toNat ≤ sorted.length := by rw [hperm.length_eq]; omega
  have hpair : ∀ p ∈ sorted.take middle.toNat, p = (δ p.2, p.2) :=
    fun p hp => hdist p (hperm.subset (List.mem_of_mem_take hp))
  have hmap : ((sorted.take middle.toNat).map Prod.snd).map (fun i => (δ i, i))
      = sorted.take middle.toNat := by
    rw [List.map_map]
    conv_rhs => rw [← List.map_id (sorted.take middle.toNat)]
    exact List.map_congr_left fun p hp => (hpair p hp).symm
  -- not after and different index: before
  have strict : ∀ p ∈ r, ∀ q ∈ r, c.N.Ordinary p.1 → c.N.Ordinary q.1 → p.2 ≠ q.2 → PairLe c.N p q →
      PairLt c.N p q := by
    intro p _ q _ ho1 ho2 hne hle
    rcases hN.trichotomy p.1 q.1 ho1 ho2 with h1 | h1 | h1
    · exact Or.inl h1
    · have hnot : ¬ PairLt c.N q p := by
        rw [← pairLess_iff]
        unfold PairLe at hle
        rw [hle]; simp
      rcases Nat.lt_or_gt_of_ne hne with h2 | h2
      · exact Or.inr ⟨h1, h2⟩
      · exact absurd (Or.inr ⟨hN.eq_symm _ _ h1, h2⟩) hnot
    · have hnot : ¬ PairLt c.N q p := by
        rw [← pairLess_iff]
        unfold PairLe at hle
        rw [hle]; simp
      exact absurd (Or.inl h1) hnot
  have hord : (∀ i ∈ S, c.N.Ordinary (δ i)) → ∀ p ∈ r, c.N.Ordinary p.1 := by
    intro ho p hp
    rw [hdist p hp]
    exact ho _ ((hitem p.2).1 (List.mem_map_of_mem hp))
  -- the partial sort, also for a negative number of results
  have hsort : (∀ p ∈ r, c.N.Ordinary p.1) → (sorted.take middle.toNat).Pairwise (PairLe c.N) ∧
      ∀ p ∈ sorted.take middle.toNat, ∀ q ∈ sorted.drop middle.toNat, PairLe c.N p q := by
    intro ho
    by_cases hk : 0 ≤ middle
    · obtain ⟨mm, hmm⟩ := Int.eq_ofNat_of_zero_le hk
      have := hc.partialSort_sorted r mm ho (by
        have : middle ≤ r.length := by omega
        omega)
      rw [hsorted, hmm]
      exact this
    · have : middle.toNat = 0 := by omega
      rw [this]
      simp
  refine ⟨?_, ?_, ?_, ?_, ?_, ?_⟩
  · rw [List.length_map, List.length_take, hlen, hperm.length_eq]
    omega
  · exact hsnd.sublist ((List.take_sublist _ _).map Prod.snd)
  · intro i hi
    obtain ⟨p, hp, rfl⟩ := List.mem_map.1 hi
    exact (hitem p.2).1 (List.mem_map_of_mem (hperm.subset (List.mem_of_mem_take hp)))
  · rw [List.map_map]
    apply List.map_congr_left
    intro p hp
    show _ = c.D.normalizedDistance (δ p.2)
    rw [congrArg Prod.fst (hpair p hp)]
  · intro ho
    rw [hmap]
    have h1 := (hsort (hord ho)).1
    have h2 : (sorted.take middle.toNat).Pairwise (fun p q => p.2 ≠ q.2) := by
      have := hsnd.sublist ((List.take_sublist middle.toNat sorted).map Prod.snd)
      exact List.pairwise_map.1 this
    refine List.Pairwise.imp_of_mem ?_ (h1.and h2)
    intro p q hp hq hpq
    have hp' := hperm.subset (List.mem_of_mem_take hp)
    have hq' := hperm.subset (List.mem_of_mem_take hq)
    exact strict p hp' q hq' (hord ho p hp') (hord ho q hq') hpq.2 hpq.1
  · intro ho i hi j hj hni
    obtain ⟨p, hp, rfl⟩ := List.mem_map.1 hi
    obtain ⟨q, hq, rfl⟩ := List.mem_map.1 ((hitem j).2 hj)
    have hp' := hperm.subset (List.mem_of_mem_take hp)
    rw [← hdist p hp', ← hdist q hq]
    have hqs : q ∈ sorted.drop middle.toNat := by
      have : q ∈ sorted.take middle.toNat ++ sorted.drop middle.toNat := by
        rw [List.take_append_drop]; exact hperm.symm.subset hq
      rcases List.mem_append.1 this with h1 | h1
      · exact absurd (List.mem_map_of_mem h1) hni
      · exact h1
    refine strict p hp' q hq (hord ho p hp') (hord ho q hq) ?_ ((hsort (hord ho)).2 p hp q hqs)
    intro e
    exact hni (by rw [← e]; exact List.mem_map_of_mem hp)

open Classical in
/-- What a search that answers has collected, and that its answer is right for the collected numbers. -/
theorem run_topK (hc : c.WF) (hN : c.N.Lawful) {query : List c.N.V} {k b : Int} {fuel : Nat} {ctx o : Ctx c} {ids : List Nat}
    {ds : List c.N.V} (h : run c fuel mem n roots query k b ctx = .ok (ids, ds, o)) :
    ∃ col S, collect mem n query (if b = -1 then k * roots.length else b) fuel (initQueue c roots) [] = .ok col ∧
      S.Nodup ∧ (∀ i, i ∈ S ↔ i ∈ col ∧ SaysItem c mem i) ∧
      TopK c.N c.D.normalizedDistance (storedDist c mem query) S k.toNat ids ds := by
  obtain ⟨col, r, hcol, hr, rfl, rfl⟩ := run_parts h
  have hsp := hc.sortIds_perm col
  obtain ⟨r2, r3, r4⟩ := distances_any (c.sortIds col) none r (hc.sortIds_sorted col) (fun x hx => by cases hx) hr
  have hnd : (r.map Prod.snd).Nodup := r2.imp fun h => Nat.ne_of_lt h
  have hitem : ∀ i, i ∈ r.map Prod.snd ↔ i ∈ col ∧ SaysItem c mem i := by
    intro i
    rw [r3, hsp.mem_iff]
    simp
  exact ⟨col, r.map Prod.snd, hcol, hnd, hitem, topK_pairs hc hN hnd hnd (fun _ => Iff.rfl) (fun p hp => Prod.ext (r4 p hp) rfl) k⟩

end Search

open Search

namespace Idx
variable {c : Cfg} {s : Idx c} {w : World} {query : List c.N.V}

/-- **C124**, what is returned: whatever the index went through and whatever its memory holds, a search that answers returns different
numbers, at most as many as asked for, each of a node inside of the memory that says that it is an item, each with the distance from the
query to the vector of that node; and in ascending order if there is no NaN among the distances. -/
theorem C124_answer (hc : c.WF) (hN : c.N.Lawful) {k b : Int} {fuel : Nat} {ctx o : Ctx c} {ids : List Nat} {ds : List c.N.V}
    (h : s.getNnsByVector fuel w query k b ctx = .ok (ids, ds, o)) :
    ids.Nodup ∧ ids.length ≤ k.toNat ∧ (∀ i ∈ ids, SaysItem c (s.mem w) i) ∧
      ds = ids.map (fun i => c.D.normalizedDistance (storedDist c (s.mem w) query i)) ∧
      ((∀ i, SaysItem c (s.mem w) i → c.N.Ordinary (storedDist c (s.mem w) query i)) →
        (ids.map fun i => (storedDist c (s.mem w) query i, i)).Pairwise (PairLt c.N)) := by
  obtain ⟨col, S, -, -, hS, ht⟩ := run_topK hc hN h
  exact ⟨ht.nodup, by rw [ht.length]; omega, fun i hi => ((hS i).1 (ht.sub i hi)).2, ht.dists,
    fun ho => ht.sorted fun i hi => ho i ((hS i).1 hi).2⟩

/-- **C124**, contexts: the answer does not depend on the context, nor on the number of turns that the search was given; also with NaN. -/
theorem C124_context {k b : Int} {fuel fuel' : Nat} {ctx ctx' o o' : Ctx c} {ids ids' : List Nat} {ds ds' : List c.N.V}
    (h : s.getNnsByVector fuel w query k b ctx = .ok (ids, ds, o)) (h' : s.getNnsByVector fuel' w query k b ctx' = .ok (ids', ds', o')) :
    ids = ids' ∧ ds = ds' := by
  obtain ⟨col, r, hcol, hr, rfl, rfl⟩ := run_parts h
  obtain ⟨col', r', hcol', hr', rfl, rfl⟩ := run_parts h'
  obtain rfl := collect_det hcol hcol'
  rw [hr] at hr'
  cases hr'
  exact ⟨rfl, rfl⟩

/-- **C124**, pages: with the same budget, who asks for fewer neighbours gets the first of the longer answer. -/
theorem C124_prefix (hc : c.WF) (hN : c.N.Lawful) {k k' b : Int} (hk : k ≤ k') (hb : b ≠ -1)
    (ho : ∀ i, SaysItem c (s.mem w) i → c.N.Ordinary (storedDist c (s.mem w) query i)) {fuel fuel' : Nat}
    {ctx ctx' o o' : Ctx c} {ids ids' : List Nat} {ds ds' : List c.N.V}
    (h : s.getNnsByVector fuel w query k b ctx = .ok (ids, ds, o)) (h' : s.getNnsByVector fuel' w query k' b ctx' = .ok (ids', ds', o')) :
    ids = ids'.take k.toNat ∧ ds = ds'.take k.toNat := by
  obtain ⟨col, S, hcol, hnd, hS, ht⟩ := run_topK hc hN h
  obtain ⟨col', S', hcol', hnd', hS', ht'⟩ := run_topK hc hN h'
  rw [if_neg hb] at hcol hcol'
  obtain rfl := collect_det hcol hcol'
  exact ht.unique hN (ht'.take (by omega)) ((List.perm_ext_iff_of_nodup hnd hnd').2 fun i => by rw [hS, hS'])
    fun i hi => ho i ((hS i).1 hi).2

/-- **C124**, budgets: a search that may look at more (a larger budget, or the default one with more neighbours asked for) returns no fewer
neighbours, and at every place one that is no further away. -/
theorem C124_budget (hc : c.WF) (hN : c.N.Lawful) {k k' b b' : Int} (hk : k ≤ k')
    (hb : (if b = -1 then k * s.roots.length else b) ≤ (if b' = -1 then k' * s.roots.length else b'))
    (ho : ∀ i, SaysItem c (s.mem w) i → c.N.Ordinary (storedDist c (s.mem w) query i)) {fuel fuel' : Nat}
    {ctx ctx' o o' : Ctx c} {ids ids' : List Nat} {ds ds' : List c.N.V}
    (h : s.getNnsByVector fuel w query k b ctx = .ok (ids, ds, o)) (h' : s.getNnsByVector fuel' w query k' b' ctx' = .ok (ids', ds', o')) :
    ids.length ≤ ids'.length ∧ ∀ (a : Nat) (ha : a < ids.length) (ha' : a < ids'.length),
      ¬ PairLt c.N (storedDist c (s.mem w) query ids[a], ids[a]) (storedDist c (s.mem w) query ids'[a], ids'[a]) := by
  obtain ⟨col, S, hcol, hnd, hS, ht⟩ := run_topK hc hN h
  obtain ⟨col', S', hcol', hnd', hS', ht'⟩ := run_topK hc hN h'
  have hpre := collect_budget hb _ (collect_mono _ hcol (le_max_left fuel fuel')) (collect_mono _ hcol' (le_max_right fuel fuel'))
  have hsub : ∀ i ∈ S, i ∈ S' := fun i hi => (hS' i).2 ⟨hpre.subset ((hS i).1 hi).1, ((hS i).1 hi).2⟩
  have hlen := (List.subperm_of_subset hnd hsub).length_le
  refine ⟨by rw [ht.length, ht'.length]; omega, fun a ha ha' => ?_⟩
  exact ht.mono hN ht' hsub (fun i hi => ho i ((hS' i).1 hi).2) ha ha'

end Idx

/-- A file that no index ever wrote: two items, an inner node that is its own child, and a root. -/
def tangledFile : List Byte :=
  [1, 0, 0, 0] ++ List.replicate 8 0 ++ [0, 0, 128, 63, 0, 0, 0, 64] ++
  [1, 0, 0, 0] ++ List.replicate 8 0 ++ [0, 0, 128, 63, 0, 0, 128, 63] ++
  [6, 0, 0, 0, 1, 0, 0, 0, 2, 0, 0, 0] ++ List.replicate 8 0 ++
  [5, 0, 0, 0, 0, 0, 0, 0, 2, 0, 0, 0] ++ List.replicate 8 0

theorem tangled_loads : ∃ t, (Idx.new (angular32 4 2) (Kiss32.new 0) 0).load .mmap (oneFile "x" tangledFile) "x" = .ok (.nil, t) ∧
    t.nItems = 5 ∧ t.nNodes = 4 ∧ t.roots = [3] := by
  have e1 : Idx.scanRoots (angular32 4 2) (Block.ofList tangledFile) 6 3 none = .ok ([3], some 5) := by decide +kernel
  have e2 : Idx.dropDup (angular32 4 2) (Block.ofList tangledFile) [3] = .ok [3] := by decide +kernel
  have e3 : ∃ x, Idx.countNNS (angular32 4 2) (Block.ofList tangledFile) 5 4 = .ok x := by
    have : (Idx.countNNS (angular32 4 2) (Block.ofList tangledFile) 5 4).isOk = true := by decide +kernel
    revert this
    cases Idx.countNNS (angular32 4 2) (Block.ofList tangledFile) 5 4 <;> simp [Except.isOk, Except.toBool]
  obtain ⟨x, e3⟩ := e3
  obtain ⟨_, hl⟩ := Idx.load_bytes (c := angular32 4 2) (bk := .mmap) (w := oneFile "x" tangledFile) (path := "x") (i := 0)
    (by simp [oneFile]) rfl (by decide) (Idx.new (angular32 4 2) (Kiss32.new 0) 0)
  have e0 : (angular32 4 2).L.wrap ((oneFile "x" tangledFile).content 0).length / (angular32 4 2).L.nodeSize = 4 := by decide +kernel
  rw [if_neg (by decide +kernel)] at hl
  rw [e0] at hl
  have e1 : Idx.scanRoots (angular32 4 2) (Block.ofList ((oneFile "x" tangledFile).content 0)) (4 + 2)
    (if 4 = 0 then (angular32 4 2).L.range - 1 else 4 - 1) none = .ok ([3], some 5) := e1
  simp only [e1, bind, Except.bind] at hl
  have e2 : Idx.dropDup (angular32 4 2) (Block.ofList ((oneFile "x" tangledFile).content 0)) [3] = .ok [3] := e2
  have e3 : Idx.countNNS (angular32 4 2) (Block.ofList ((oneFile "x" tangledFile).content 0)) 5 4 = .ok x := e3
  simp only [e2, Option.getD_some, e3] at hl
  exact ⟨_, hl, rfl, rfl, rfl⟩

/-- `Load` takes that file, and searches of it answer: the item 1 is found again and again (the node above it is its own child)
and returned once; fewer neighbours and smaller budgets; no distance is NaN. -/
example : ∃ t : Idx (angular32 4 2), (Idx.new (angular32 4 2) (Kiss32.new 0) 0).load .mmap (oneFile "x" tangledFile) "x" = .ok (.nil, t) ∧
    (∀ i, SaysItem (angular32 4 2) (t.mem (oneFile "x" tangledFile)) i →
      (angular32 4 2).N.Ordinary (storedDist (angular32 4 2) (t.mem (oneFile "x" tangledFile)) query2 i)) ∧
    answerIds (t.getNnsByVector 100 (oneFile "x" tangledFile) query2 2 5 (wideCtx _)) = some [1, 0] ∧
    answerIds (t.getNnsByVector 100 (oneFile "x" tangledFile) query2 1 5 (wideCtx _)) = some [1] ∧
    answerIds (t.getNnsByVector 100 (oneFile "x" tangledFile) query2 2 1 (wideCtx _)) = some [0] := by
  obtain ⟨t, h1, h2, h3, h4⟩ := tangled_loads
  refine ⟨t, h1, ?_⟩
  obtain ⟨i', bytes', g1, g2, _, _, hm, _⟩ := Idx.load_ok h1
  obtain rfl : tangledFile = bytes' := g2
  unfold Idx.getNnsByVector
  rw [hm, h2, h4]
  refine ⟨?_, by decide +kernel, by decide +kernel, by decide +kernel⟩
  have hall : ∀ a, a < 61 → Node.nDesc (angular32 4 2).L (Block.ofList tangledFile).get a = 1 → (angular32 4 2).N.Ordinary
      ((angular32 4 2).D.distance ((angular32 4 2).D.initNode (Node.setVec (angular32 4 2).L (angular32 4 2).C zeros 0 query2) 0) 0
        (Block.ofList tangledFile).get a) := by
    decide +kernel
  rintro i ⟨a1, a2⟩
  refine hall _ ?_ a2
  have e : (Block.ofList tangledFile).size = 80 := by decide +kernel
  have e' : (angular32 4 2).L.nodeSize = 20 := by decide +kernel
  rw [e, e'] at a1
  omega

end Annoy
