import Verif.Props.Decides
/-!
# C130: indexes over parts of the items

What the answers of an index over some of the items have to do with the answers of the index over all of them: leaving items out only deletes them from an
exact answer and fills it up at the end; the exact answers of shards can be merged; and items with equal vectors come in the order of their indexes.
-/
namespace Annoy
open Ieee

/-- Of two lists in the same strict order, the one is the beginning of the other if it is a part of it and has with each element all that come before it. -/
theorem prefix_of_sorted {α : Type} {r : α → α → Prop} (irr : ∀ a, ¬ r a a) (tr : ∀ a b c, r a b → r b c → r a c) {A B : List α}
    (hA : A.Pairwise r) (hB : B.Pairwise r) (hsub : ∀ a ∈ A, a ∈ B) (hdown : ∀ a ∈ A, ∀ b ∈ B, r b a → b ∈ A) : A <+: B := by
  induction A generalizing B with
  | nil => exact List.nil_prefix
  | cons a A ih =>
    cases B with
    | nil => exact absurd (hsub a List.mem_cons_self) (by simp)
    | cons b B =>
      rw [List.pairwise_cons] at hA hB
      have hab : a = b := by
        rcases List.mem_cons.1 (hsub a List.mem_cons_self) with h | h
        · exact h
        · have h1 := hB.1 a h
          rcases List.mem_cons.1 (hdown a List.mem_cons_self b List.mem_cons_self h1) with h2 | h2
          · exact h2.symm
          · exact absurd (tr _ _ _ h1 (hA.1 b h2)) (irr b)
      subst hab
      refine List.cons_prefix_cons.2 ⟨rfl, ih hA.2 hB.2 (fun x hx => ?_) fun x hx y hy hyx => ?_⟩
      · rcases List.mem_cons.1 (hsub x (List.mem_cons_of_mem _ hx)) with h | h
        · subst h
          exact absurd (hA.1 x hx) (irr x)
        · exact h
      · rcases List.mem_cons.1 (hdown x (List.mem_cons_of_mem _ hx) y (List.mem_cons_of_mem _ hy) hyx) with h | h
        · subst h
          exact absurd (hB.1 y hy) (irr y)
        · exact h

section
variable {N : Num} {norm norm' : N.V → N.V} {δ : Nat → N.V} {S S' : List Nat} {k : Nat} {ids ids' : List Nat} {ds ds' : List N.V}

/-- Fewer competitors: what is left of an answer is in the answer over fewer items. -/
theorem TopK.restrict_mem (hN : N.Lawful) (T : TopK N norm δ S k ids ds) (T' : TopK N norm' δ S' k ids' ds') (hSS : ∀ i ∈ S', i ∈ S)
    (ho : ∀ i ∈ S, N.Ordinary (δ i)) {i : Nat} (hi : i ∈ ids) (hi' : i ∈ S') : i ∈ ids' := by
  by_contra hn
  have ho' : ∀ i ∈ S', N.Ordinary (δ i) := fun i h => ho i (hSS i h)
  have hall : ∀ j ∈ ids', j ∈ ids := by
    intro j hj
    by_contra hjn
    exact pair_irrefl hN _ (pair_trans hN _ _ _ (T'.least ho' j hj i hi' hn) (T.least ho i hi j (hSS j (T'.sub j hj)) hjn))
  have h1 : (i :: ids').length ≤ ids.length :=
    ((List.nodup_cons.2 ⟨hn, T'.nodup⟩).subperm fun x hx => by
      rcases List.mem_cons.1 hx with h | h
      · exact h ▸ hi
      · exact hall x h).length_le
  have h2 : (i :: ids').length ≤ S'.length :=
    ((List.nodup_cons.2 ⟨hn, T'.nodup⟩).subperm fun x hx => by
      rcases List.mem_cons.1 hx with h | h
      · exact h ▸ hi'
      · exact T'.sub x h).length_le
  have h3 := T.length
  have h4 := T'.length
  simp only [List.length_cons] at h1 h2
  omega

/-- The answer over fewer items begins with what is left of the answer over all. -/
theorem TopK.restrict (hN : N.Lawful) (T : TopK N norm δ S k ids ds) (T' : TopK N norm' δ S' k ids' ds') (hSS : ∀ i ∈ S', i ∈ S)
    (ho : ∀ i ∈ S, N.Ordinary (δ i)) : ids.filter (· ∈ S') <+: ids' := by
  have ho' : ∀ i ∈ S', N.Ordinary (δ i) := fun i h => ho i (hSS i h)
  refine prefix_of_sorted (r := fun i j => PairLt N (δ i, i) (δ j, j)) (fun i => pair_irrefl hN _) (fun i j l => pair_trans hN _ _ _)
    ((List.pairwise_map.1 (T.sorted ho)).filter _) (List.pairwise_map.1 (T'.sorted ho')) ?_ ?_
  · intro i hi
    obtain ⟨h1, h2⟩ := List.mem_filter.1 hi
    exact T.restrict_mem hN T' hSS ho h1 (by simpa using h2)
  · intro i hi j hj hji
    have h1 := (List.mem_filter.1 hi).1
    refine List.mem_filter.2 ⟨?_, by simpa using T'.sub j hj⟩
    by_contra hn
    exact pair_irrefl hN _ (pair_trans hN _ _ _ hji (T.least ho i h1 j (hSS j (T'.sub j hj)) hn))

/-- If nothing of the answer was left out, the answer is the same. -/
theorem TopK.restrict_eq (hN : N.Lawful) (hS' : S'.Nodup) (T : TopK N norm δ S k ids ds) (T' : TopK N norm' δ S' k ids' ds') (hSS : ∀ i ∈ S', i ∈ S)
    (ho : ∀ i ∈ S, N.Ordinary (δ i)) (hk : ∀ i ∈ ids, i ∈ S') : ids' = ids := by
  have h := T.restrict hN T' hSS ho
  rw [List.filter_eq_self.2 fun i hi => by simpa using hk i hi] at h
  have h1 : S'.length ≤ S.length := (hS'.subperm hSS).length_le
  have h2 := T.length
  have h3 := T'.length
  exact (h.eq_of_length_le (by omega)).symm

/-- Answers over parts that cover all items: merging them gives the answer over all. -/
theorem TopK.merge {S₁ S₂ ids₁ ids₂ : List Nat} {ds₁ ds₂ : List N.V} (hN : N.Lawful) (T : TopK N norm δ S k ids ds)
    (T₁ : TopK N norm' δ S₁ k ids₁ ds₁) (T₂ : TopK N norm' δ S₂ k ids₂ ds₂) (hc : ∀ i, i ∈ S ↔ i ∈ S₁ ∨ i ∈ S₂) (hd : ∀ i ∈ S₁, i ∉ S₂)
    (ho : ∀ i ∈ S, N.Ordinary (δ i)) : ids = nearest N δ (ids₁ ++ ids₂) k := by
  have hsub : ∀ i ∈ ids₁ ++ ids₂, i ∈ S := fun i hi => (hc i).2 ((List.mem_append.1 hi).imp (T₁.sub i) (T₂.sub i))
  have hnd : (ids₁ ++ ids₂).Nodup := List.nodup_append.2 ⟨T₁.nodup, T₂.nodup, fun i h1 j h2 e => hd i (T₁.sub i h1) (e ▸ T₂.sub j h2)⟩
  have hin : ∀ i ∈ ids, i ∈ ids₁ ++ ids₂ := fun i hi => List.mem_append.2 (((hc i).1 (T.sub i hi)).imp
    (fun h => T.restrict_mem hN T₁ (fun i h => (hc i).2 (Or.inl h)) ho hi h) fun h => T.restrict_mem hN T₂ (fun i h => (hc i).2 (Or.inr h)) ho hi h)
  exact (T.restrict_eq hN hnd (nearest_topK hN norm hnd (fun i hi => ho i (hsub i hi)) k) hsub ho hin).symm

/-- Items at the same distance come in the order of their indexes, and none is left out before a larger one. -/
theorem TopK.ties (hN : N.Lawful) (T : TopK N norm δ S k ids ds) (ho : ∀ i ∈ S, N.Ordinary (δ i)) {i j : Nat} (hij : i < j) (he : δ i = δ j) (hj : j ∈ ids) :
    (i ∈ ids → [i, j].Sublist ids) ∧ (i ∈ S → i ∈ ids) := by
  have hlt : i ∈ S → PairLt N (δ i, i) (δ j, j) := fun hi => Or.inr ⟨by show N.eq (δ i) (δ j) = true; rw [← he]; exact ho i hi, hij⟩
  constructor
  · intro hi
    have hs := List.pairwise_map.1 (T.sorted ho)
    obtain ⟨a, b, rfl⟩ := List.append_of_mem hj
    rcases List.mem_append.1 hi with h | h
    · exact (List.singleton_sublist.2 h).append (List.singleton_sublist.2 List.mem_cons_self)
    · rcases List.mem_cons.1 h with h | h
      · omega
      · have h1 := (List.pairwise_cons.1 (List.pairwise_append.1 hs).2.1).1 i h
        exact absurd (pair_trans hN _ _ _ (hlt (T.sub i hi)) h1) (pair_irrefl hN _)
  · intro hi
    by_contra hn
    exact pair_irrefl hN _ (pair_trans hN _ _ _ (hlt hi) (T.least ho j hj i hi hn))
end

/-! ### By brute force -/

section
variable {N : Num} {adds adds' adds₁ adds₂ : List (Nat × List N.V)} {q : List N.V} {k : Nat}

/-- Every item of the one table is in the other, with the same vector. -/
def PartOf {V : Type} (adds' adds : List (Nat × List V)) : Prop :=
  ∀ i v, lastAdded adds' i = some v → lastAdded adds i = some v

theorem PartOf.some {V : Type} {adds' adds : List (Nat × List V)} (h : PartOf adds' adds) {i : Nat} (hi : (lastAdded adds' i).isSome) :
    (lastAdded adds i).isSome := by
  obtain ⟨v, hv⟩ := Option.isSome_iff_exists.1 hi
  rw [h i v hv]
  rfl

theorem PartOf.formula (h : PartOf adds' adds) {i : Nat} (hi : (lastAdded adds' i).isSome) :
    formulaDist N (lastAdded adds') q i = formulaDist N (lastAdded adds) q i := by
  obtain ⟨v, hv⟩ := Option.isSome_iff_exists.1 hi
  unfold formulaDist
  rw [h i v hv, hv]

theorem bruteForce_topK (hN : N.Lawful) (h : PartOf adds' adds) (ho : ∀ i ∈ addedIds adds, N.Ordinary (formulaDist N (lastAdded adds) q i)) :
    ∃ ds, TopK N id (formulaDist N (lastAdded adds) q) (addedIds adds') k (bruteForce N adds' q k) ds := by
  have he : ∀ i ∈ addedIds adds', formulaDist N (lastAdded adds') q i = formulaDist N (lastAdded adds) q i := fun i hi => h.formula (mem_addedIds.1 hi)
  exact ⟨_, (nearest_topK hN id (liveOf_nodup _ _)
    (fun i hi => by rw [he i hi]; exact ho i (mem_addedIds.2 (h.some (mem_addedIds.1 hi)))) k).congr he⟩

theorem bruteForce_mem (hN : N.Lawful) (ho : ∀ i ∈ addedIds adds, N.Ordinary (formulaDist N (lastAdded adds) q i)) {i : Nat} (hi : i ∈ bruteForce N adds q k) :
    (lastAdded adds i).isSome := by
  obtain ⟨ds, T⟩ := bruteForce_topK (k := k) hN (fun _ _ h => h : PartOf adds adds) ho
  exact mem_addedIds.1 (T.sub i hi)

theorem bruteForce_part (hN : N.Lawful) (h : PartOf adds' adds) (ho : ∀ i ∈ addedIds adds, N.Ordinary (formulaDist N (lastAdded adds) q i)) :
    (bruteForce N adds q k).filter (fun i => (lastAdded adds' i).isSome) <+: bruteForce N adds' q k ∧
    ((∀ i ∈ bruteForce N adds q k, (lastAdded adds' i).isSome) → bruteForce N adds' q k = bruteForce N adds q k) := by
  obtain ⟨ds, T⟩ := bruteForce_topK (k := k) hN (fun _ _ h => h : PartOf adds adds) ho
  obtain ⟨ds', T'⟩ := bruteForce_topK (k := k) hN h ho
  have hSS : ∀ i ∈ addedIds adds', i ∈ addedIds adds := fun i hi => mem_addedIds.2 (h.some (mem_addedIds.1 hi))
  refine ⟨?_, fun hk => T.restrict_eq hN (liveOf_nodup _ _) T' hSS ho fun i hi => mem_addedIds.2 (hk i hi)⟩
  have := T.restrict hN T' hSS ho
  simpa only [mem_addedIds, Bool.decide_eq_true] using this

theorem bruteForce_shards (hN : N.Lawful) (h₁ : PartOf adds₁ adds) (h₂ : PartOf adds₂ adds)
    (hc : ∀ i, (lastAdded adds i).isSome → (lastAdded adds₁ i).isSome ∨ (lastAdded adds₂ i).isSome)
    (hd : ∀ i, (lastAdded adds₁ i).isSome → lastAdded adds₂ i = none) (ho : ∀ i ∈ addedIds adds, N.Ordinary (formulaDist N (lastAdded adds) q i)) :
    bruteForce N adds q k = nearest N (formulaDist N (lastAdded adds) q) (bruteForce N adds₁ q k ++ bruteForce N adds₂ q k) k := by
  obtain ⟨ds, T⟩ := bruteForce_topK (k := k) hN (fun _ _ h => h : PartOf adds adds) ho
  obtain ⟨ds₁, T₁⟩ := bruteForce_topK (k := k) hN h₁ ho
  obtain ⟨ds₂, T₂⟩ := bruteForce_topK (k := k) hN h₂ ho
  refine T.merge hN T₁ T₂ (fun i => ?_) (fun i hi => ?_) ho
  · simp only [mem_addedIds]
    exact ⟨hc i, fun h => h.elim h₁.some h₂.some⟩
  · rw [mem_addedIds] at hi ⊢
    rw [hd i hi]
    exact Bool.false_ne_true

theorem bruteForce_equal (hN : N.Lawful) (ho : ∀ i ∈ addedIds adds, N.Ordinary (formulaDist N (lastAdded adds) q i)) {i j : Nat} (hij : i < j)
    (hi : (lastAdded adds i).isSome) (he : lastAdded adds i = lastAdded adds j) (hj : j ∈ bruteForce N adds q k) : [i, j].Sublist (bruteForce N adds q k) := by
  obtain ⟨ds, T⟩ := bruteForce_topK (k := k) hN (fun _ _ h => h : PartOf adds adds) ho
  have := T.ties hN ho hij (by unfold formulaDist; rw [he]) hj
  exact this.1 (this.2 (mem_addedIds.2 hi))
end

/-! ### Every answer -/

/-- **C130, equal vectors.**  Whatever the budget: if two items with equal vectors are both in an answer, the smaller index comes first, and their distances are equal. -/
theorem C130_equal_order {c : Cfg} {numCPU : Nat} {pol : BuildPolicy} {adds : List (Nat × List c.N.V)} {trees workers : Int} {s s' : Idx c}
    (h : Session c numCPU pol adds trees workers s s') (hN : c.N.Lawful) (w : World) {q : List c.N.V} (hq : GoodQuery c q)
    (ho : ∀ i ∈ addedIds adds, c.N.Ordinary (itemDist c (lastAdded adds) q i)) {k b : Int} {fuel : Nat} {ctx o : Ctx c} {ids : List Nat} {ds : List c.N.V}
    (hr : s'.getNnsByVector fuel w q k b ctx = .ok (ids, ds, o)) {i j : Nat} (hij : i < j) (he : lastAdded adds i = lastAdded adds j)
    (hi : i ∈ ids) (hj : j ∈ ids) : [i, j].Sublist ids ∧ ∃ d, (i, d) ∈ ids.zip ds ∧ (j, d) ∈ ids.zip ds := by
  obtain ⟨S, h1, h2, T⟩ := C16_sound h hN w hq hr
  have hδ : itemDist c (lastAdded adds) q i = itemDist c (lastAdded adds) q j := by unfold itemDist; rw [he]
  refine ⟨(T.ties hN (fun i hi => ho i (mem_addedIds.2 (h2 i hi))) hij hδ hj).1 hi, c.D.normalizedDistance (itemDist c (lastAdded adds) q i), ?_, ?_⟩
  · rw [T.dists]
    exact zip_map_mem hi
  · rw [T.dists, hδ]
    exact zip_map_mem hj

/-! ### Exact answers -/

section
variable {n : Nat} {q : List ieee32.V} {k : Int} {w w' w₁ w₂ : World}
  {R : Rng} {sI : List Nat → List Nat} {sP : List (ieee32.V × Nat) → List (ieee32.V × Nat)} {ix numCPU : Nat} {pol : BuildPolicy}
  {adds : List (Nat × List ieee32.V)} {trees workers : Int} {s t : Idx (angularCfg ieee32 (bvCodec 4) R sI sP ix n)}
  {b : Int} {fuel : Nat} {ctx o : Ctx (angularCfg ieee32 (bvCodec 4) R sI sP ix n)} {ids : List Nat} {ds : List ieee32.V}
  {R' : Rng} {sI' : List Nat → List Nat} {sP' : List (ieee32.V × Nat) → List (ieee32.V × Nat)} {ix' numCPU' : Nat} {pol' : BuildPolicy}
  {adds' : List (Nat × List ieee32.V)} {trees' workers' : Int} {s' t' : Idx (angularCfg ieee32 (bvCodec 4) R' sI' sP' ix' n)}
  {b' : Int} {fuel' : Nat} {ctx' o' : Ctx (angularCfg ieee32 (bvCodec 4) R' sI' sP' ix' n)} {ids' : List Nat} {ds' : List ieee32.V}
  {R₁ : Rng} {sI₁ : List Nat → List Nat} {sP₁ : List (ieee32.V × Nat) → List (ieee32.V × Nat)} {ix₁ numCPU₁ : Nat} {pol₁ : BuildPolicy}
  {adds₁ : List (Nat × List ieee32.V)} {trees₁ workers₁ : Int} {s₁ t₁ : Idx (angularCfg ieee32 (bvCodec 4) R₁ sI₁ sP₁ ix₁ n)}
  {b₁ : Int} {fuel₁ : Nat} {ctx₁ o₁ : Ctx (angularCfg ieee32 (bvCodec 4) R₁ sI₁ sP₁ ix₁ n)} {ids₁ : List Nat} {ds₁ : List ieee32.V}
  {R₂ : Rng} {sI₂ : List Nat → List Nat} {sP₂ : List (ieee32.V × Nat) → List (ieee32.V × Nat)} {ix₂ numCPU₂ : Nat} {pol₂ : BuildPolicy}
  {adds₂ : List (Nat × List ieee32.V)} {trees₂ workers₂ : Int} {s₂ t₂ : Idx (angularCfg ieee32 (bvCodec 4) R₂ sI₂ sP₂ ix₂ n)}
  {b₂ : Int} {fuel₂ : Nat} {ctx₂ o₂ : Ctx (angularCfg ieee32 (bvCodec 4) R₂ sI₂ sP₂ ix₂ n)} {ids₂ : List Nat} {ds₂ : List ieee32.V}

theorem formula_ordinary_float32 (h : Session (angularCfg ieee32 (bvCodec 4) R sI sP ix n) numCPU pol adds trees workers s t) (hn : n ≤ 2 ^ 17) (hv : ∀ i v, lastAdded adds i = some v → Moderate32 n v) (hq : Moderate32 n q) :
    ∀ i ∈ addedIds adds, ieee32.Ordinary (formulaDist ieee32 (lastAdded adds) q i) := fun i hi => by
  exact (congrArg ieee32.Ordinary (itemDist_formula (c := (angularCfg ieee32 (bvCodec 4) R sI sP ix n)) (fun i v hv => vecDist_angular ieee32_mulLaws h.wf hq.length (h.added_length hv)) i)).mp
    ((arith32 hn).approx.ordinary _ ((arith32 hn).itemDist h.wf hq (mem_addedIds.1 hi) (hv i)).1)

/-- **C130 for `float32`**, vectors of at least `3 * sizeof(TIX)` components and of moderate norm.  Two indexes, the second over some of the items of the first, both asked with a
budget of at least their number of items: the second answer begins with what is left of the first one; if nothing of the first answer was left out,
the answers are equal, distances included. -/
theorem C130_part_float32 (hn : n ≤ 2 ^ 17) (hv : ∀ i v, lastAdded adds i = some v → Moderate32 n v) (hq : Moderate32 n q)
    (h : Session (angularCfg ieee32 (bvCodec 4) R sI sP ix n) numCPU pol adds trees workers s t) (hix : 3 * ix ≤ n)
    (hroots : t.roots ≠ []) (hb : ((addedIds adds).length : Int) ≤ (if b = -1 then k * t.roots.length else b))
    (hr : t.getNnsByVector fuel w q k b ctx = .ok (ids, ds, o))
    (h' : Session (angularCfg ieee32 (bvCodec 4) R' sI' sP' ix' n) numCPU' pol' adds' trees' workers' s' t') (hix' : 3 * ix' ≤ n)
    (hroots' : t'.roots ≠ []) (hb' : ((addedIds adds').length : Int) ≤ (if b' = -1 then k * t'.roots.length else b'))
    (hr' : t'.getNnsByVector fuel' w' q k b' ctx' = .ok (ids', ds', o')) (hpart : PartOf adds' adds) :
    ids.filter (fun i => (lastAdded adds' i).isSome) <+: ids' ∧ ((∀ i ∈ ids, (lastAdded adds' i).isSome) → ids' = ids ∧ ds' = ds) := by
  have ho := formula_ordinary_float32 h hn hv hq
  obtain ⟨e1, e2⟩ := C129_float32 h hix hn hv hq hroots w hb hr
  obtain ⟨f1, f2⟩ := C129_float32 h' hix' hn (fun i v hi => hv i v (hpart i v hi)) hq hroots' w' hb' hr'
  obtain ⟨g1, g2⟩ := bruteForce_part (k := k.toNat) ieee32_keyLaws.lawful hpart ho
  rw [e1, f1, e2, f2]
  refine ⟨g1, fun hk => ⟨g2 hk, ?_⟩⟩
  rw [g2 hk]
  exact List.map_congr_left fun i hi => by rw [hpart.formula (hk i hi)]

/-- **C130 for `float32`**, shards: the items are shared out among two indexes.  The nearest `k` of the two answers together are the answer of the
index over all items. -/
theorem C130_shards_float32 (hn : n ≤ 2 ^ 17) (hv : ∀ i v, lastAdded adds i = some v → Moderate32 n v) (hq : Moderate32 n q)
    (h : Session (angularCfg ieee32 (bvCodec 4) R sI sP ix n) numCPU pol adds trees workers s t) (hix : 3 * ix ≤ n)
    (hroots : t.roots ≠ []) (hb : ((addedIds adds).length : Int) ≤ (if b = -1 then k * t.roots.length else b))
    (hr : t.getNnsByVector fuel w q k b ctx = .ok (ids, ds, o))
    (h₁ : Session (angularCfg ieee32 (bvCodec 4) R₁ sI₁ sP₁ ix₁ n) numCPU₁ pol₁ adds₁ trees₁ workers₁ s₁ t₁) (hix₁ : 3 * ix₁ ≤ n)
    (hroots₁ : t₁.roots ≠ []) (hb₁ : ((addedIds adds₁).length : Int) ≤ (if b₁ = -1 then k * t₁.roots.length else b₁))
    (hr₁ : t₁.getNnsByVector fuel₁ w₁ q k b₁ ctx₁ = .ok (ids₁, ds₁, o₁))
    (h₂ : Session (angularCfg ieee32 (bvCodec 4) R₂ sI₂ sP₂ ix₂ n) numCPU₂ pol₂ adds₂ trees₂ workers₂ s₂ t₂) (hix₂ : 3 * ix₂ ≤ n)
    (hroots₂ : t₂.roots ≠ []) (hb₂ : ((addedIds adds₂).length : Int) ≤ (if b₂ = -1 then k * t₂.roots.length else b₂))
    (hr₂ : t₂.getNnsByVector fuel₂ w₂ q k b₂ ctx₂ = .ok (ids₂, ds₂, o₂))
    (hpart₁ : PartOf adds₁ adds) (hpart₂ : PartOf adds₂ adds)
    (hc : ∀ i, (lastAdded adds i).isSome → (lastAdded adds₁ i).isSome ∨ (lastAdded adds₂ i).isSome)
    (hd : ∀ i, (lastAdded adds₁ i).isSome → lastAdded adds₂ i = none) :
    ids = nearest ieee32 (formulaDist ieee32 (lastAdded adds) q) (ids₁ ++ ids₂) k.toNat := by
  rw [(C129_float32 h hix hn hv hq hroots w hb hr).1, (C129_float32 h₁ hix₁ hn (fun i v hi => hv i v (hpart₁ i v hi)) hq hroots₁ w₁ hb₁ hr₁).1,
    (C129_float32 h₂ hix₂ hn (fun i v hi => hv i v (hpart₂ i v hi)) hq hroots₂ w₂ hb₂ hr₂).1]
  exact bruteForce_shards ieee32_keyLaws.lawful hpart₁ hpart₂ hc hd (formula_ordinary_float32 h hn hv hq)

/-- **C130 for `float32`**, equal vectors: an exact answer with an item has all items with the same vector and a smaller index, in front of it. -/
theorem C130_equal_float32 (hn : n ≤ 2 ^ 17) (hv : ∀ i v, lastAdded adds i = some v → Moderate32 n v) (hq : Moderate32 n q)
    (h : Session (angularCfg ieee32 (bvCodec 4) R sI sP ix n) numCPU pol adds trees workers s t) (hix : 3 * ix ≤ n)
    (hroots : t.roots ≠ []) (hb : ((addedIds adds).length : Int) ≤ (if b = -1 then k * t.roots.length else b))
    (hr : t.getNnsByVector fuel w q k b ctx = .ok (ids, ds, o))
    {i j : Nat} (hij : i < j) (hi : (lastAdded adds i).isSome) (he : lastAdded adds i = lastAdded adds j) (hj : j ∈ ids) : [i, j].Sublist ids := by
  have e1 := (C129_float32 h hix hn hv hq hroots w hb hr).1
  rw [e1] at hj ⊢
  exact bruteForce_equal ieee32_keyLaws.lawful (formula_ordinary_float32 h hn hv hq) hij hi he hj
end

section
variable {n : Nat} {q : List ieee64.V} {k : Int} {w w' w₁ w₂ : World}
  {R : Rng} {sI : List Nat → List Nat} {sP : List (ieee64.V × Nat) → List (ieee64.V × Nat)} {ix numCPU : Nat} {pol : BuildPolicy}
  {adds : List (Nat × List ieee64.V)} {trees workers : Int} {s t : Idx (angularCfg ieee64 (bvCodec 8) R sI sP ix n)}
  {b : Int} {fuel : Nat} {ctx o : Ctx (angularCfg ieee64 (bvCodec 8) R sI sP ix n)} {ids : List Nat} {ds : List ieee64.V}
  {R' : Rng} {sI' : List Nat → List Nat} {sP' : List (ieee64.V × Nat) → List (ieee64.V × Nat)} {ix' numCPU' : Nat} {pol' : BuildPolicy}
  {adds' : List (Nat × List ieee64.V)} {trees' workers' : Int} {s' t' : Idx (angularCfg ieee64 (bvCodec 8) R' sI' sP' ix' n)}
  {b' : Int} {fuel' : Nat} {ctx' o' : Ctx (angularCfg ieee64 (bvCodec 8) R' sI' sP' ix' n)} {ids' : List Nat} {ds' : List ieee64.V}
  {R₁ : Rng} {sI₁ : List Nat → List Nat} {sP₁ : List (ieee64.V × Nat) → List (ieee64.V × Nat)} {ix₁ numCPU₁ : Nat} {pol₁ : BuildPolicy}
  {adds₁ : List (Nat × List ieee64.V)} {trees₁ workers₁ : Int} {s₁ t₁ : Idx (angularCfg ieee64 (bvCodec 8) R₁ sI₁ sP₁ ix₁ n)}
  {b₁ : Int} {fuel₁ : Nat} {ctx₁ o₁ : Ctx (angularCfg ieee64 (bvCodec 8) R₁ sI₁ sP₁ ix₁ n)} {ids₁ : List Nat} {ds₁ : List ieee64.V}
  {R₂ : Rng} {sI₂ : List Nat → List Nat} {sP₂ : List (ieee64.V × Nat) → List (ieee64.V × Nat)} {ix₂ numCPU₂ : Nat} {pol₂ : BuildPolicy}
  {adds₂ : List (Nat × List ieee64.V)} {trees₂ workers₂ : Int} {s₂ t₂ : Idx (angularCfg ieee64 (bvCodec 8) R₂ sI₂ sP₂ ix₂ n)}
  {b₂ : Int} {fuel₂ : Nat} {ctx₂ o₂ : Ctx (angularCfg ieee64 (bvCodec 8) R₂ sI₂ sP₂ ix₂ n)} {ids₂ : List Nat} {ds₂ : List ieee64.V}

theorem formula_ordinary_float64 (h : Session (angularCfg ieee64 (bvCodec 8) R sI sP ix n) numCPU pol adds trees workers s t) (hn : n ≤ 2 ^ 46) (hv : ∀ i v, lastAdded adds i = some v → Moderate64 n v) (hq : Moderate64 n q) :
    ∀ i ∈ addedIds adds, ieee64.Ordinary (formulaDist ieee64 (lastAdded adds) q i) := fun i hi => by
  exact (congrArg ieee64.Ordinary (itemDist_formula (c := (angularCfg ieee64 (bvCodec 8) R sI sP ix n)) (fun i v hv => vecDist_angular ieee64_mulLaws h.wf hq.length (h.added_length hv)) i)).mp
    ((arith64 hn).approx.ordinary _ ((arith64 hn).itemDist h.wf hq (mem_addedIds.1 hi) (hv i)).1)

/-- **C130 for `float64`**, vectors of at least `3 * sizeof(TIX)` components and of moderate norm.  Two indexes, the second over some of the items of the first, both asked with a
budget of at least their number of items: the second answer begins with what is left of the first one; if nothing of the first answer was left out,
the answers are equal, distances included. -/
theorem C130_part_float64 (hn : n ≤ 2 ^ 46) (hv : ∀ i v, lastAdded adds i = some v → Moderate64 n v) (hq : Moderate64 n q)
    (h : Session (angularCfg ieee64 (bvCodec 8) R sI sP ix n) numCPU pol adds trees workers s t) (hix : 3 * ix ≤ n)
    (hroots : t.roots ≠ []) (hb : ((addedIds adds).length : Int) ≤ (if b = -1 then k * t.roots.length else b))
    (hr : t.getNnsByVector fuel w q k b ctx = .ok (ids, ds, o))
    (h' : Session (angularCfg ieee64 (bvCodec 8) R' sI' sP' ix' n) numCPU' pol' adds' trees' workers' s' t') (hix' : 3 * ix' ≤ n)
    (hroots' : t'.roots ≠ []) (hb' : ((addedIds adds').length : Int) ≤ (if b' = -1 then k * t'.roots.length else b'))
    (hr' : t'.getNnsByVector fuel' w' q k b' ctx' = .ok (ids', ds', o')) (hpart : PartOf adds' adds) :
    ids.filter (fun i => (lastAdded adds' i).isSome) <+: ids' ∧ ((∀ i ∈ ids, (lastAdded adds' i).isSome) → ids' = ids ∧ ds' = ds) := by
  have ho := formula_ordinary_float64 h hn hv hq
  obtain ⟨e1, e2⟩ := C129_float64 h hix hn hv hq hroots w hb hr
  obtain ⟨f1, f2⟩ := C129_float64 h' hix' hn (fun i v hi => hv i v (hpart i v hi)) hq hroots' w' hb' hr'
  obtain ⟨g1, g2⟩ := bruteForce_part (k := k.toNat) ieee64_keyLaws.lawful hpart ho
  rw [e1, f1, e2, f2]
  refine ⟨g1, fun hk => ⟨g2 hk, ?_⟩⟩
  rw [g2 hk]
  exact List.map_congr_left fun i hi => by rw [hpart.formula (hk i hi)]

/-- **C130 for `float64`**, shards: the items are shared out among two indexes.  The nearest `k` of the two answers together are the answer of the
index over all items. -/
theorem C130_shards_float64 (hn : n ≤ 2 ^ 46) (hv : ∀ i v, lastAdded adds i = some v → Moderate64 n v) (hq : Moderate64 n q)
    (h : Session (angularCfg ieee64 (bvCodec 8) R sI sP ix n) numCPU pol adds trees workers s t) (hix : 3 * ix ≤ n)
    (hroots : t.roots ≠ []) (hb : ((addedIds adds).length : Int) ≤ (if b = -1 then k * t.roots.length else b))
    (hr : t.getNnsByVector fuel w q k b ctx = .ok (ids, ds, o))
    (h₁ : Session (angularCfg ieee64 (bvCodec 8) R₁ sI₁ sP₁ ix₁ n) numCPU₁ pol₁ adds₁ trees₁ workers₁ s₁ t₁) (hix₁ : 3 * ix₁ ≤ n)
    (hroots₁ : t₁.roots ≠ []) (hb₁ : ((addedIds adds₁).length : Int) ≤ (if b₁ = -1 then k * t₁.roots.length else b₁))
    (hr₁ : t₁.getNnsByVector fuel₁ w₁ q k b₁ ctx₁ = .ok (ids₁, ds₁, o₁))
    (h₂ : Session (angularCfg ieee64 (bvCodec 8) R₂ sI₂ sP₂ ix₂ n) numCPU₂ pol₂ adds₂ trees₂ workers₂ s₂ t₂) (hix₂ : 3 * ix₂ ≤ n)
    (hroots₂ : t₂.roots ≠ []) (hb₂ : ((addedIds adds₂).length : Int) ≤ (if b₂ = -1 then k * t₂.roots.length else b₂))
    (hr₂ : t₂.getNnsByVector fuel₂ w₂ q k b₂ ctx₂ = .ok (ids₂, ds₂, o₂))
    (hpart₁ : PartOf adds₁ adds) (hpart₂ : PartOf adds₂ adds)
    (hc : ∀ i, (lastAdded adds i).isSome → (lastAdded adds₁ i).isSome ∨ (lastAdded adds₂ i).isSome)
    (hd : ∀ i, (lastAdded adds₁ i).isSome → lastAdded adds₂ i = none) :
    ids = nearest ieee64 (formulaDist ieee64 (lastAdded adds) q) (ids₁ ++ ids₂) k.toNat := by
  rw [(C129_float64 h hix hn hv hq hroots w hb hr).1, (C129_float64 h₁ hix₁ hn (fun i v hi => hv i v (hpart₁ i v hi)) hq hroots₁ w₁ hb₁ hr₁).1,
    (C129_float64 h₂ hix₂ hn (fun i v hi => hv i v (hpart₂ i v hi)) hq hroots₂ w₂ hb₂ hr₂).1]
  exact bruteForce_shards ieee64_keyLaws.lawful hpart₁ hpart₂ hc hd (formula_ordinary_float64 h hn hv hq)

/-- **C130 for `float64`**, equal vectors: an exact answer with an item has all items with the same vector and a smaller index, in front of it. -/
theorem C130_equal_float64 (hn : n ≤ 2 ^ 46) (hv : ∀ i v, lastAdded adds i = some v → Moderate64 n v) (hq : Moderate64 n q)
    (h : Session (angularCfg ieee64 (bvCodec 8) R sI sP ix n) numCPU pol adds trees workers s t) (hix : 3 * ix ≤ n)
    (hroots : t.roots ≠ []) (hb : ((addedIds adds).length : Int) ≤ (if b = -1 then k * t.roots.length else b))
    (hr : t.getNnsByVector fuel w q k b ctx = .ok (ids, ds, o))
    {i j : Nat} (hij : i < j) (hi : (lastAdded adds i).isSome) (he : lastAdded adds i = lastAdded adds j) (hj : j ∈ ids) : [i, j].Sublist ids := by
  have e1 := (C129_float64 h hix hn hv hq hroots w hb hr).1
  rw [e1] at hj ⊢
  exact bruteForce_equal ieee64_keyLaws.lawful (formula_ordinary_float64 h hn hv hq) hij hi he hj
end

section
variable {n : Nat} {q : List ieee32.V} {k : Int} {w w' w₁ w₂ : World}
  {R : Rng} {sI : List Nat → List Nat} {sP : List (ieee32.V × Nat) → List (ieee32.V × Nat)} {ix numCPU : Nat} {pol : BuildPolicy}
  {adds : List (Nat × List ieee32.V)} {trees workers : Int} {s t : Idx (dotCfg ieee32 (bvCodec 4) R sI sP ix n)}
  {b : Int} {fuel : Nat} {ctx o : Ctx (dotCfg ieee32 (bvCodec 4) R sI sP ix n)} {ids : List Nat} {ds : List ieee32.V}
  {R' : Rng} {sI' : List Nat → List Nat} {sP' : List (ieee32.V × Nat) → List (ieee32.V × Nat)} {ix' numCPU' : Nat} {pol' : BuildPolicy}
  {adds' : List (Nat × List ieee32.V)} {trees' workers' : Int} {s' t' : Idx (dotCfg ieee32 (bvCodec 4) R' sI' sP' ix' n)}
  {b' : Int} {fuel' : Nat} {ctx' o' : Ctx (dotCfg ieee32 (bvCodec 4) R' sI' sP' ix' n)} {ids' : List Nat} {ds' : List ieee32.V}
  {R₁ : Rng} {sI₁ : List Nat → List Nat} {sP₁ : List (ieee32.V × Nat) → List (ieee32.V × Nat)} {ix₁ numCPU₁ : Nat} {pol₁ : BuildPolicy}
  {adds₁ : List (Nat × List ieee32.V)} {trees₁ workers₁ : Int} {s₁ t₁ : Idx (dotCfg ieee32 (bvCodec 4) R₁ sI₁ sP₁ ix₁ n)}
  {b₁ : Int} {fuel₁ : Nat} {ctx₁ o₁ : Ctx (dotCfg ieee32 (bvCodec 4) R₁ sI₁ sP₁ ix₁ n)} {ids₁ : List Nat} {ds₁ : List ieee32.V}
  {R₂ : Rng} {sI₂ : List Nat → List Nat} {sP₂ : List (ieee32.V × Nat) → List (ieee32.V × Nat)} {ix₂ numCPU₂ : Nat} {pol₂ : BuildPolicy}
  {adds₂ : List (Nat × List ieee32.V)} {trees₂ workers₂ : Int} {s₂ t₂ : Idx (dotCfg ieee32 (bvCodec 4) R₂ sI₂ sP₂ ix₂ n)}
  {b₂ : Int} {fuel₂ : Nat} {ctx₂ o₂ : Ctx (dotCfg ieee32 (bvCodec 4) R₂ sI₂ sP₂ ix₂ n)} {ids₂ : List Nat} {ds₂ : List ieee32.V}

theorem formula_ordinary_dot32 (h : Session (dotCfg ieee32 (bvCodec 4) R sI sP ix n) numCPU pol adds trees workers s t) (hn : n ≤ 2 ^ 17) (hv : ∀ i v, lastAdded adds i = some v → Moderate32 n v) (hq : Moderate32 n q) :
    ∀ i ∈ addedIds adds, ieee32.Ordinary (formulaDist ieee32 (lastAdded adds) q i) := fun i hi => by
  exact (congrArg ieee32.Ordinary (itemDist_formula (c := (dotCfg ieee32 (bvCodec 4) R sI sP ix n)) (fun i v hv => vecDist_dot ieee32_mulLaws (by rw [dotArith32.blank]; exact ieee32_vanish.zero) h.wf hq.length (h.added_length hv)) i)).mp
    ((arith32 hn).approx.ordinary _ ((arith32 hn).itemDistDot dotArith32 h.wf hq (mem_addedIds.1 hi) (hv i)).1)

/-- **C130 for `float32`, dot product**, vectors of at least `3 * sizeof(TIX)` components and of moderate norm.  Two indexes, the second over some of the items of the first, both asked with a
budget of at least their number of items: the second answer begins with what is left of the first one; if nothing of the first answer was left out,
the answers are equal, distances included. -/
theorem C130_part_dot32 (hn : n ≤ 2 ^ 17) (hv : ∀ i v, lastAdded adds i = some v → Moderate32 n v) (hq : Moderate32 n q)
    (h : Session (dotCfg ieee32 (bvCodec 4) R sI sP ix n) numCPU pol adds trees workers s t) (hix : 3 * ix ≤ n)
    (hroots : t.roots ≠ []) (hb : ((addedIds adds).length : Int) ≤ (if b = -1 then k * t.roots.length else b))
    (hr : t.getNnsByVector fuel w q k b ctx = .ok (ids, ds, o))
    (h' : Session (dotCfg ieee32 (bvCodec 4) R' sI' sP' ix' n) numCPU' pol' adds' trees' workers' s' t') (hix' : 3 * ix' ≤ n)
    (hroots' : t'.roots ≠ []) (hb' : ((addedIds adds').length : Int) ≤ (if b' = -1 then k * t'.roots.length else b'))
    (hr' : t'.getNnsByVector fuel' w' q k b' ctx' = .ok (ids', ds', o')) (hpart : PartOf adds' adds) :
    ids.filter (fun i => (lastAdded adds' i).isSome) <+: ids' ∧ ((∀ i ∈ ids, (lastAdded adds' i).isSome) → ids' = ids ∧ ds' = ds) := by
  have ho := formula_ordinary_dot32 h hn hv hq
  obtain ⟨e1, e2⟩ := C129_dot32 h hix hn hv hq hroots w hb hr
  obtain ⟨f1, f2⟩ := C129_dot32 h' hix' hn (fun i v hi => hv i v (hpart i v hi)) hq hroots' w' hb' hr'
  obtain ⟨g1, g2⟩ := bruteForce_part (k := k.toNat) ieee32_keyLaws.lawful hpart ho
  rw [e1, f1, e2, f2]
  refine ⟨g1, fun hk => ⟨g2 hk, ?_⟩⟩
  rw [g2 hk]
  exact List.map_congr_left fun i hi => by rw [hpart.formula (hk i hi)]

/-- **C130 for `float32`, dot product**, shards: the items are shared out among two indexes.  The nearest `k` of the two answers together are the answer of the
index over all items. -/
theorem C130_shards_dot32 (hn : n ≤ 2 ^ 17) (hv : ∀ i v, lastAdded adds i = some v → Moderate32 n v) (hq : Moderate32 n q)
    (h : Session (dotCfg ieee32 (bvCodec 4) R sI sP ix n) numCPU pol adds trees workers s t) (hix : 3 * ix ≤ n)
    (hroots : t.roots ≠ []) (hb : ((addedIds adds).length : Int) ≤ (if b = -1 then k * t.roots.length else b))
    (hr : t.getNnsByVector fuel w q k b ctx = .ok (ids, ds, o))
    (h₁ : Session (dotCfg ieee32 (bvCodec 4) R₁ sI₁ sP₁ ix₁ n) numCPU₁ pol₁ adds₁ trees₁ workers₁ s₁ t₁) (hix₁ : 3 * ix₁ ≤ n)
    (hroots₁ : t₁.roots ≠ []) (hb₁ : ((addedIds adds₁).length : Int) ≤ (if b₁ = -1 then k * t₁.roots.length else b₁))
    (hr₁ : t₁.getNnsByVector fuel₁ w₁ q k b₁ ctx₁ = .ok (ids₁, ds₁, o₁))
    (h₂ : Session (dotCfg ieee32 (bvCodec 4) R₂ sI₂ sP₂ ix₂ n) numCPU₂ pol₂ adds₂ trees₂ workers₂ s₂ t₂) (hix₂ : 3 * ix₂ ≤ n)
    (hroots₂ : t₂.roots ≠ []) (hb₂ : ((addedIds adds₂).length : Int) ≤ (if b₂ = -1 then k * t₂.roots.length else b₂))
    (hr₂ : t₂.getNnsByVector fuel₂ w₂ q k b₂ ctx₂ = .ok (ids₂, ds₂, o₂))
    (hpart₁ : PartOf adds₁ adds) (hpart₂ : PartOf adds₂ adds)
    (hc : ∀ i, (lastAdded adds i).isSome → (lastAdded adds₁ i).isSome ∨ (lastAdded adds₂ i).isSome)
    (hd : ∀ i, (lastAdded adds₁ i).isSome → lastAdded adds₂ i = none) :
    ids = nearest ieee32 (formulaDist ieee32 (lastAdded adds) q) (ids₁ ++ ids₂) k.toNat := by
  rw [(C129_dot32 h hix hn hv hq hroots w hb hr).1, (C129_dot32 h₁ hix₁ hn (fun i v hi => hv i v (hpart₁ i v hi)) hq hroots₁ w₁ hb₁ hr₁).1,
    (C129_dot32 h₂ hix₂ hn (fun i v hi => hv i v (hpart₂ i v hi)) hq hroots₂ w₂ hb₂ hr₂).1]
  exact bruteForce_shards ieee32_keyLaws.lawful hpart₁ hpart₂ hc hd (formula_ordinary_dot32 h hn hv hq)

/-- **C130 for `float32`, dot product**, equal vectors: an exact answer with an item has all items with the same vector and a smaller index, in front of it. -/
theorem C130_equal_dot32 (hn : n ≤ 2 ^ 17) (hv : ∀ i v, lastAdded adds i = some v → Moderate32 n v) (hq : Moderate32 n q)
    (h : Session (dotCfg ieee32 (bvCodec 4) R sI sP ix n) numCPU pol adds trees workers s t) (hix : 3 * ix ≤ n)
    (hroots : t.roots ≠ []) (hb : ((addedIds adds).length : Int) ≤ (if b = -1 then k * t.roots.length else b))
    (hr : t.getNnsByVector fuel w q k b ctx = .ok (ids, ds, o))
    {i j : Nat} (hij : i < j) (hi : (lastAdded adds i).isSome) (he : lastAdded adds i = lastAdded adds j) (hj : j ∈ ids) : [i, j].Sublist ids := by
  have e1 := (C129_dot32 h hix hn hv hq hroots w hb hr).1
  rw [e1] at hj ⊢
  exact bruteForce_equal ieee32_keyLaws.lawful (formula_ordinary_dot32 h hn hv hq) hij hi he hj
end

section
variable {n : Nat} {q : List ieee64.V} {k : Int} {w w' w₁ w₂ : World}
  {R : Rng} {sI : List Nat → List Nat} {sP : List (ieee64.V × Nat) → List (ieee64.V × Nat)} {ix numCPU : Nat} {pol : BuildPolicy}
  {adds : List (Nat × List ieee64.V)} {trees workers : Int} {s t : Idx (dotCfg ieee64 (bvCodec 8) R sI sP ix n)}
  {b : Int} {fuel : Nat} {ctx o : Ctx (dotCfg ieee64 (bvCodec 8) R sI sP ix n)} {ids : List Nat} {ds : List ieee64.V}
  {R' : Rng} {sI' : List Nat → List Nat} {sP' : List (ieee64.V × Nat) → List (ieee64.V × Nat)} {ix' numCPU' : Nat} {pol' : BuildPolicy}
  {adds' : List (Nat × List ieee64.V)} {trees' workers' : Int} {s' t' : Idx (dotCfg ieee64 (bvCodec 8) R' sI' sP' ix' n)}
  {b' : Int} {fuel' : Nat} {ctx' o' : Ctx (dotCfg ieee64 (bvCodec 8) R' sI' sP' ix' n)} {ids' : List Nat} {ds' : List ieee64.V}
  {R₁ : Rng} {sI₁ : List Nat → List Nat} {sP₁ : List (ieee64.V × Nat) → List (ieee64.V × Nat)} {ix₁ numCPU₁ : Nat} {pol₁ : BuildPolicy}
  {adds₁ : List (Nat × List ieee64.V)} {trees₁ workers₁ : Int} {s₁ t₁ : Idx (dotCfg ieee64 (bvCodec 8) R₁ sI₁ sP₁ ix₁ n)}
  {b₁ : Int} {fuel₁ : Nat} {ctx₁ o₁ : Ctx (dotCfg ieee64 (bvCodec 8) R₁ sI₁ sP₁ ix₁ n)} {ids₁ : List Nat} {ds₁ : List ieee64.V}
  {R₂ : Rng} {sI₂ : List Nat → List Nat} {sP₂ : List (ieee64.V × Nat) → List (ieee64.V × Nat)} {ix₂ numCPU₂ : Nat} {pol₂ : BuildPolicy}
  {adds₂ : List (Nat × List ieee64.V)} {trees₂ workers₂ : Int} {s₂ t₂ : Idx (dotCfg ieee64 (bvCodec 8) R₂ sI₂ sP₂ ix₂ n)}
  {b₂ : Int} {fuel₂ : Nat} {ctx₂ o₂ : Ctx (dotCfg ieee64 (bvCodec 8) R₂ sI₂ sP₂ ix₂ n)} {ids₂ : List Nat} {ds₂ : List ieee64.V}

theorem formula_ordinary_dot64 (h : Session (dotCfg ieee64 (bvCodec 8) R sI sP ix n) numCPU pol adds trees workers s t) (hn : n ≤ 2 ^ 46) (hv : ∀ i v, lastAdded adds i = some v → Moderate64 n v) (hq : Moderate64 n q) :
    ∀ i ∈ addedIds adds, ieee64.Ordinary (formulaDist ieee64 (lastAdded adds) q i) := fun i hi => by
  exact (congrArg ieee64.Ordinary (itemDist_formula (c := (dotCfg ieee64 (bvCodec 8) R sI sP ix n)) (fun i v hv => vecDist_dot ieee64_mulLaws (by rw [dotArith64.blank]; exact ieee64_vanish.zero) h.wf hq.length (h.added_length hv)) i)).mp
    ((arith64 hn).approx.ordinary _ ((arith64 hn).itemDistDot dotArith64 h.wf hq (mem_addedIds.1 hi) (hv i)).1)

/-- **C130 for `float64`, dot product**, vectors of at least `3 * sizeof(TIX)` components and of moderate norm.  Two indexes, the second over some of the items of the first, both asked with a
budget of at least their number of items: the second answer begins with what is left of the first one; if nothing of the first answer was left out,
the answers are equal, distances included. -/
theorem C130_part_dot64 (hn : n ≤ 2 ^ 46) (hv : ∀ i v, lastAdded adds i = some v → Moderate64 n v) (hq : Moderate64 n q)
    (h : Session (dotCfg ieee64 (bvCodec 8) R sI sP ix n) numCPU pol adds trees workers s t) (hix : 3 * ix ≤ n)
    (hroots : t.roots ≠ []) (hb : ((addedIds adds).length : Int) ≤ (if b = -1 then k * t.roots.length else b))
    (hr : t.getNnsByVector fuel w q k b ctx = .ok (ids, ds, o))
    (h' : Session (dotCfg ieee64 (bvCodec 8) R' sI' sP' ix' n) numCPU' pol' adds' trees' workers' s' t') (hix' : 3 * ix' ≤ n)
    (hroots' : t'.roots ≠ []) (hb' : ((addedIds adds').length : Int) ≤ (if b' = -1 then k * t'.roots.length else b'))
    (hr' : t'.getNnsByVector fuel' w' q k b' ctx' = .ok (ids', ds', o')) (hpart : PartOf adds' adds) :
    ids.filter (fun i => (lastAdded adds' i).isSome) <+: ids' ∧ ((∀ i ∈ ids, (lastAdded adds' i).isSome) → ids' = ids ∧ ds' = ds) := by
  have ho := formula_ordinary_dot64 h hn hv hq
  obtain ⟨e1, e2⟩ := C129_dot64 h hix hn hv hq hroots w hb hr
  obtain ⟨f1, f2⟩ := C129_dot64 h' hix' hn (fun i v hi => hv i v (hpart i v hi)) hq hroots' w' hb' hr'
  obtain ⟨g1, g2⟩ := bruteForce_part (k := k.toNat) ieee64_keyLaws.lawful hpart ho
  rw [e1, f1, e2, f2]
  refine ⟨g1, fun hk => ⟨g2 hk, ?_⟩⟩
  rw [g2 hk]
  exact List.map_congr_left fun i hi => by rw [hpart.formula (hk i hi)]

/-- **C130 for `float64`, dot product**, shards: the items are shared out among two indexes.  The nearest `k` of the two answers together are the answer of the
index over all items. -/
theorem C130_shards_dot64 (hn : n ≤ 2 ^ 46) (hv : ∀ i v, lastAdded adds i = some v → Moderate64 n v) (hq : Moderate64 n q)
    (h : Session (dotCfg ieee64 (bvCodec 8) R sI sP ix n) numCPU pol adds trees workers s t) (hix : 3 * ix ≤ n)
    (hroots : t.roots ≠ []) (hb : ((addedIds adds).length : Int) ≤ (if b = -1 then k * t.roots.length else b))
    (hr : t.getNnsByVector fuel w q k b ctx = .ok (ids, ds, o))
    (h₁ : Session (dotCfg ieee64 (bvCodec 8) R₁ sI₁ sP₁ ix₁ n) numCPU₁ pol₁ adds₁ trees₁ workers₁ s₁ t₁) (hix₁ : 3 * ix₁ ≤ n)
    (hroots₁ : t₁.roots ≠ []) (hb₁ : ((addedIds adds₁).length : Int) ≤ (if b₁ = -1 then k * t₁.roots.length else b₁))
    (hr₁ : t₁.getNnsByVector fuel₁ w₁ q k b₁ ctx₁ = .ok (ids₁, ds₁, o₁))
    (h₂ : Session (dotCfg ieee64 (bvCodec 8) R₂ sI₂ sP₂ ix₂ n) numCPU₂ pol₂ adds₂ trees₂ workers₂ s₂ t₂) (hix₂ : 3 * ix₂ ≤ n)
    (hroots₂ : t₂.roots ≠ []) (hb₂ : ((addedIds adds₂).length : Int) ≤ (if b₂ = -1 then k * t₂.roots.length else b₂))
    (hr₂ : t₂.getNnsByVector fuel₂ w₂ q k b₂ ctx₂ = .ok (ids₂, ds₂, o₂))
    (hpart₁ : PartOf adds₁ adds) (hpart₂ : PartOf adds₂ adds)
    (hc : ∀ i, (lastAdded adds i).isSome → (lastAdded adds₁ i).isSome ∨ (lastAdded adds₂ i).isSome)
    (hd : ∀ i, (lastAdded adds₁ i).isSome → lastAdded adds₂ i = none) :
    ids = nearest ieee64 (formulaDist ieee64 (lastAdded adds) q) (ids₁ ++ ids₂) k.toNat := by
  rw [(C129_dot64 h hix hn hv hq hroots w hb hr).1, (C129_dot64 h₁ hix₁ hn (fun i v hi => hv i v (hpart₁ i v hi)) hq hroots₁ w₁ hb₁ hr₁).1,
    (C129_dot64 h₂ hix₂ hn (fun i v hi => hv i v (hpart₂ i v hi)) hq hroots₂ w₂ hb₂ hr₂).1]
  exact bruteForce_shards ieee64_keyLaws.lawful hpart₁ hpart₂ hc hd (formula_ordinary_dot64 h hn hv hq)

/-- **C130 for `float64`, dot product**, equal vectors: an exact answer with an item has all items with the same vector and a smaller index, in front of it. -/
theorem C130_equal_dot64 (hn : n ≤ 2 ^ 46) (hv : ∀ i v, lastAdded adds i = some v → Moderate64 n v) (hq : Moderate64 n q)
    (h : Session (dotCfg ieee64 (bvCodec 8) R sI sP ix n) numCPU pol adds trees workers s t) (hix : 3 * ix ≤ n)
    (hroots : t.roots ≠ []) (hb : ((addedIds adds).length : Int) ≤ (if b = -1 then k * t.roots.length else b))
    (hr : t.getNnsByVector fuel w q k b ctx = .ok (ids, ds, o))
    {i j : Nat} (hij : i < j) (hi : (lastAdded adds i).isSome) (he : lastAdded adds i = lastAdded adds j) (hj : j ∈ ids) : [i, j].Sublist ids := by
  have e1 := (C129_dot64 h hix hn hv hq hroots w hb hr).1
  rw [e1] at hj ⊢
  exact bruteForce_equal ieee64_keyLaws.lawful (formula_ordinary_dot64 h hn hv hq) hij hi he hj
end

theorem partOf_of {V : Type} [DecidableEq V] {adds' adds : List (Nat × List V)}
    (h : ∀ i < slotCount adds', lastAdded adds' i = none ∨ lastAdded adds' i = lastAdded adds i) : PartOf adds' adds := fun i v hv => by
  rcases h i (lastAdded_lt adds' i (by rw [hv]; rfl)) with h1 | h1
  · rw [hv] at h1
    cases h1
  · rw [← h1, hv]

/-- Twenty items in three trees, and shared out among two indexes, the second with a gap before its first item: the hypotheses of the theorems above hold. -/
example : ∃ s s' t t' u u', Session (angular32 4 12) 1 .single (longAdds 20) 3 1 s s' ∧ Session (angular32 4 12) 1 .single ((longAdds 20).take 9) 2 1 t t' ∧
    Session (angular32 4 12) 1 .single ((longAdds 20).drop 9) 1 1 u u' ∧ 3 * 4 ≤ 12 ∧
    (∀ i v, lastAdded (longAdds 20) i = some v → Moderate32 12 v) ∧ Moderate32 12 query12 ∧
    PartOf ((longAdds 20).take 9) (longAdds 20) ∧ PartOf ((longAdds 20).drop 9) (longAdds 20) ∧
    (∀ i, (lastAdded (longAdds 20) i).isSome → (lastAdded ((longAdds 20).take 9) i).isSome ∨ (lastAdded ((longAdds 20).drop 9) i).isSome) ∧
    (∀ i, (lastAdded ((longAdds 20).take 9) i).isSome → lastAdded ((longAdds 20).drop 9) i = none) ∧
    s'.roots.length = 3 ∧ t'.roots.length = 2 ∧ u'.roots.length = 1 := by
  obtain ⟨s, s', -, h, h1, -⟩ := C76_build (c := angular32 4 12) (.angular32 (by decide) (by decide)) 1 (longAdds 20) (legalAdds_of (by decide +kernel)) (Kiss32.new 0) 0 3 1
    (by decide +kernel)
  obtain ⟨t, t', -, g, g1, -⟩ := C76_build (c := angular32 4 12) (.angular32 (by decide) (by decide)) 1 ((longAdds 20).take 9) (legalAdds_of (by decide +kernel)) (Kiss32.new 7) 0 2 1
    (by decide +kernel)
  obtain ⟨u, u', -, f, f1, -⟩ := C76_build (c := angular32 4 12) (.angular32 (by decide) (by decide)) 1 ((longAdds 20).drop 9) (legalAdds_of (by decide +kernel)) (Kiss32.new 8) 0 1 1
    (by decide +kernel)
  refine ⟨s, s', t, t', u, u', h, g, f, by decide, longAdds_moderate,
    moderate32_of_bits (by decide) (by decide) (by decide +kernel) ⟨0, by decide +kernel⟩, partOf_of (by decide +kernel), partOf_of (by decide +kernel), fun i hi => ?_,
    fun i hi => ?_, h1 (by decide), g1 (by decide), f1 (by decide)⟩
  · have key : ∀ i < slotCount (longAdds 20), (lastAdded ((longAdds 20).take 9) i).isSome ∨ (lastAdded ((longAdds 20).drop 9) i).isSome := by decide +kernel
    exact key i (lastAdded_lt _ i hi)
  · have key : ∀ i < slotCount ((longAdds 20).take 9), (lastAdded ((longAdds 20).drop 9) i).isNone := by decide +kernel
    exact Option.isNone_iff_eq_none.1 (key i (lastAdded_lt _ i hi))

end Annoy
