import Verif.Props.Context
import Verif.Props.Margins
import Verif.Props.Reproducible
/-!
# C92: contexts have room for searches with a budget of at most the number of items

C22 – contexts made by `CreateContext` are large enough for every search – is false: the places are counted as if buckets were repeated in
every tree and single items were not.  But searches with a budget of at most the number of items stay in the first tree, and for these
there is room as soon as there are three items.
-/
namespace Annoy

/-! ### single items and buckets -/

theorem SubTree.singles_le {L : Layout} {b : Bytes} {n : Nat} {t : Tree} (h : SubTree L b n t) : t.singles ≤ t.items.length := by
  have := h.items_length
  omega

/-- A subtree with two items has a bucket. -/
theorem SubTree.bucketed {L : Layout} {sz : Nat} (hL : L.Ok sz) {b : Bytes} {n : Nat} {t : Tree} (h : SubTree L b n t)
    (h2 : 2 ≤ t.items.length) : t.singles < t.items.length := by
  have hK := hL.K_ge
  induction t with
  | item i => simp [Tree.items] at h2
  | hole i => exact h.elim
  | bucket i ids => simp only [Tree.singles]; omega
  | split i l r ihl ihr =>
    obtain ⟨-, -, -, h3, h4, -, -, hl0, hr0, hl, hr⟩ := h
    have h1 := hl.singles_le
    have h2 := hr.singles_le
    simp only [Tree.singles, Tree.items, List.length_append] at h4 ⊢
    by_cases c1 : 2 ≤ l.items.length
    · have := ihl hl c1; omega
    · have := ihr hr (by omega); omega

/-- A tree over at least three items has a bucket. -/
theorem RootTree.bucketed {L : Layout} {sz : Nat} (hL : L.Ok sz) {b : Bytes} {n : Nat} {live : List Nat} {t : Tree}
    (h : RootTree L b n live t) (h3 : 3 ≤ live.length ∨ n ≤ L.K ∧ 0 < n) : t.singles < t.items.length := by
  cases t with
  | item i => exact h.elim
  | hole i => exact h.elim
  | bucket i ids =>
    obtain ⟨-, -, -, -, l, hp, rfl⟩ := h
    have := hp.length_eq
    simp only [Tree.singles, Tree.items, List.length_append, List.length_replicate]
    omega
  | split i l r =>
    obtain ⟨-, -, -, hK, -, -, -, ⟨-, -, hp, hl, hr⟩ | ⟨j, rfl, -⟩⟩ := h
    · have h1 := hl.singles_le
      have h2 := hr.singles_le
      have h4 := hp.length_eq
      rw [List.length_append] at h4
      simp only [Tree.singles, Tree.items, List.length_append]
      by_cases c1 : 2 ≤ l.items.length
      · have := hl.bucketed hL c1; omega
      · have := hr.bucketed hL (by omega); omega
    · simp at h3; omega

theorem RootTree.singles_le {L : Layout} {b : Bytes} {n : Nat} {live : List Nat} (hlive : live.length ≤ n) {t : Tree}
    (h : RootTree L b n live t) : t.singles ≤ t.items.length := by
  have := h.items_length hlive
  omega

theorem addedIds_ne_nil {V : Type} {adds : List (Nat × List V)} (h : adds ≠ []) : addedIds adds ≠ [] := by
  obtain ⟨e, he⟩ := List.exists_mem_of_ne_nil _ h
  intro h0
  have : e.1 ∈ addedIds adds := mem_addedIds.2 (lastAdded_of_mem he)
  rw [h0] at this
  cases this

theorem sum_singles_lt {ts : List Tree} (h : ∀ t ∈ ts, t.singles ≤ t.items.length) {t : Tree} (ht : t ∈ ts) :
    (ts.map Tree.singles).sum + (t.items.length - t.singles) ≤ (ts.flatMap Tree.items).length := by
  induction ts with
  | nil => cases ht
  | cons u ts ih =>
    have hu := h u (by simp)
    simp only [List.map_cons, List.sum_cons, List.flatMap_cons, List.length_append]
    rcases List.mem_cons.1 ht with rfl | ht
    · have : (ts.map Tree.singles).sum ≤ (ts.flatMap Tree.items).length := by
        clear ih ht
        induction ts with
        | nil => simp
        | cons v ts ih =>
          have := ih fun x hx => h x (by
            rcases List.mem_cons.1 hx with rfl | hx
            · simp
            · simp [hx])
          have hv := h v (by simp)
          simp only [List.map_cons, List.sum_cons, List.flatMap_cons, List.length_append]
          omega
      omega
    · have := ih (fun x hx => h x (by simp [hx])) ht
      omega

namespace Search
variable {c : Cfg} {mem : Block} {n : Nat} {roots : List Nat} {m : Nat → Option (List c.N.V)} {ts : List Tree}

/-- A search whose budget is at most the number of items of the first tree needs room for the first tree only. -/
theorem first_tree_room (hc : c.WF) (hk : c.N.KeyLaws) (hM : MinKeys c) (h : Searchable c mem n roots m ts)
    {query : List c.N.V} (hq : GoodQuery c query) {t : Tree} (ht : t ∈ ts)
    (hx : ∀ t ∈ ts, ∀ i ∈ t.splitNodes, c.N.Finite (marginOf c mem query i)) (hroots : roots.Nodup)
    (hfirst : ∀ u ∈ ts, t.root ≤ u.root) {k b : Int} {fuel : Nat} (hb : (if b = -1 then k * roots.length else b) ≤ t.items.length)
    (hf : Tree.sizes ts < fuel) {ctx : Ctx c} (hroom : t.items.length ≤ ctx.nns.length) :
    ∃ x, run c fuel mem n roots query k b ctx = .ok x := by
  have ho : ∀ t ∈ ts, ∀ j ∈ t.splitNodes, c.N.Ordinary (marginOf c mem query j) :=
    fun t ht j hj => (hk.lt_ordinary _ _ (hx t ht j hj).1).1
  obtain ⟨vs, G, r1, r2, r3⟩ := collect_walk hc hk hM h (query := query) (x := marginOf c mem query)
    (fun t _ => marginsAt_marginOf hq.margin t) ho (budget := if b = -1 then k * roots.length else b) hf
  obtain ⟨rest, p, hlt⟩ := first_split ht (by rw [h.roots]; exact hroots) hfirst
  have r2' := r2.perm (p.symm.map fun t => (c.N.inf, t))
  obtain ⟨G', s1, s2⟩ := r2'.first_tree_only hk (fun u hu => hx u (p.symm.subset hu)) hlt r3 hb
  have hl := s1.content.2.length_eq
  simp only [List.flatMap_cons, List.flatMap_nil, List.append_nil, List.length_append] at hl
  have below : ∀ i ∈ gathered vs, i < n := by
    intro i hi
    have := s1.content.2.subset (List.mem_append_left _ hi)
    simp only [List.flatMap_cons, List.flatMap_nil, List.append_nil] at this
    exact h.below t ht i this
  obtain ⟨ids, ds, ctx', e, -⟩ := run_of_collect (b := b) hc hk.lawful h hq.length r1 below (by omega : (gathered vs).length ≤ ctx.nns.length)
  exact ⟨_, e⟩

end Search

variable {c : Cfg} {numCPU : Nat} {pol : BuildPolicy} {adds : List (Nat × List c.N.V)} {trees workers : Int} {s s' : Idx c}

theorem RootTree.items_length_eq {L : Layout} {b : Bytes} {n : Nat} {live : List Nat} (hlive : live.length ≤ n) {t : Tree}
    (h : RootTree L b n live t) (h3 : 3 ≤ live.length ∨ n ≤ L.K ∧ 0 < n) : t.items.length = if n ≤ L.K then n else live.length := by
  cases t with
  | item i => exact h.elim
  | hole i => exact h.elim
  | bucket i ids =>
    obtain ⟨-, hK, -, -, l, hp, rfl⟩ := h
    have := hp.length_eq
    rw [if_pos hK]
    simp only [Tree.items, List.length_append, List.length_replicate]
    omega
  | split i l r =>
    obtain ⟨-, -, -, hK, -, -, -, ⟨-, -, hp, -⟩ | ⟨j, rfl, -⟩⟩ := h
    · rw [if_neg (by omega), ← hp.length_eq]; rfl
    · simp at h3; omega

/-- The size of a tree, and of a fresh context. -/
theorem Session.first_fits (h : Session c numCPU pol adds trees workers s s')
    (hs : SplitsKept c numCPU pol (slotCount adds) trees workers) (hroots : s'.roots ≠ [])
    (h3 : 3 ≤ (addedIds adds).length ∨ slotCount adds ≤ c.L.K ∧ adds ≠ []) :
    (if slotCount adds ≤ c.L.K then slotCount adds else (addedIds adds).length) ≤ s'.createContext.nns.length := by
  obtain ⟨ts, S, Z, R, hsize⟩ := h.context_size hs ⟨fun _ => none, fun _ => [], 0, fun _ => false⟩
  obtain ⟨N0, B, _⟩ := h.built
  rw [B.nItems] at R
  have hle : (addedIds adds).length ≤ slotCount adds := liveOf_length_le _ _
  have hne : addedIds adds ≠ [] := by
    rcases h3 with h3 | ⟨-, h3⟩
    · intro e; rw [e] at h3; simp at h3
    · exact addedIds_ne_nil h3
  have hpos := List.length_pos_of_ne_nil hne
  have h3' : 3 ≤ (addedIds adds).length ∨ slotCount adds ≤ c.L.K ∧ 0 < slotCount adds := h3.imp id fun x => ⟨x.1, by omega⟩
  have hsize := hsize hne
  obtain ⟨t, ht⟩ := List.exists_mem_of_ne_nil ts (by rintro rfl; exact hroots (by rw [← S.roots]; rfl))
  have h5 := sum_singles_lt (fun t ht => (R t ht).singles_le hle) ht
  have h6 := (R t ht).bucketed h.wf.layout h3'
  have h7 := (R t ht).items_length_eq hle h3'
  split at h7
  · next hK =>
    rw [if_pos hK]
    have : t.singles = 0 := by
      cases t with
      | item i => exact (R _ ht).elim
      | hole i => exact (R _ ht).elim
      | bucket i ids => rfl
      | split i l r => have := (R _ ht).2.2.2.1; omega
    omega
  · next hK => rw [if_neg hK]; omega

/-- **C92**: a fresh context (or one that was made by `CreateContext` and used before, or any larger one) has room for every search
whose budget – `searchK`, or `numReturn * len(roots)` for -1 – is at most the number of items, provided there are three items, or no more slots than fit into a
bucket.  Built indexes, any number of workers and any schedule. -/
theorem Session.C92_room (h : Session c numCPU pol adds trees workers s s')
    (hs : SplitsKept c numCPU pol (slotCount adds) trees workers) (hk : c.N.KeyLaws) (hM : MinKeys c) (w : World) {query : List c.N.V}
    (hq : GoodQuery c query) (hfin : FiniteBelow s' w query) (hroots : s'.roots ≠ [])
    (h3 : 3 ≤ (addedIds adds).length ∨ slotCount adds ≤ c.L.K ∧ adds ≠ []) {k b : Int}
    (hb : (if b = -1 then k * s'.roots.length else b) ≤ (addedIds adds).length) {fuel : Nat} (hf : 2 * (s'.nNodes - s'.nItems) < fuel)
    {ctx : Ctx c} (hctx : s'.createContext.nns.length ≤ ctx.nns.length) :
    ∃ x, s'.getNnsByVector fuel w query k b ctx = .ok x := by
  have hfit := h.first_fits hs hroots h3
  obtain ⟨ts, S, Z, R, -⟩ := h.context_size hs w
  obtain ⟨N0, B, _⟩ := h.built
  rw [B.nItems] at R
  have hle : (addedIds adds).length ≤ slotCount adds := liveOf_length_le _ _
  have h3' : 3 ≤ (addedIds adds).length ∨ slotCount adds ≤ c.L.K ∧ 0 < slotCount adds := h3.imp id fun x =>
    ⟨x.1, by have := List.length_pos_of_ne_nil (addedIds_ne_nil x.2); omega⟩
  obtain ⟨t, ht, hfirst⟩ := Tree.exists_first (ts := ts) (by rintro rfl; exact hroots (by rw [← S.roots]; rfl))
  have h7 := (R t ht).items_length_eq hle h3'
  refine Search.first_tree_room h.wf hk hM S hq ht (hfin.margins hq.margin S) (h.roots_nodup hs) hfirst (hb.trans ?_) (by omega) (by omega)
  rw [h7]
  split
  · exact_mod_cast hle
  · exact le_rfl

/-- **C92** for loaded indexes. -/
theorem Session.C92_room_loaded (h : Session c numCPU pol adds trees workers s s')
    (hn : 2 ≤ slotCount adds) (hroots : s'.roots ≠ []) (hk : c.L.CountKept (slotCount adds))
    (hs : SplitsKept c numCPU pol (slotCount adds) trees workers) (hck : c.L.CopiesKept (slotCount adds)) (hkl : c.N.KeyLaws)
    (hM : MinKeys c) {w : World} {path : String} (hf : FileOf s' w path) {bk : Backend} {u t : Idx c}
    (hl : u.load bk w path = .ok (.nil, t)) (h3 : 3 ≤ (addedIds adds).length ∨ slotCount adds ≤ c.L.K) :
    ∃ F : Nat, ∀ {query : List c.N.V} (_ : GoodQuery c query) (_ : FiniteBelow t w query)
    {k b : Int} {fuel : Nat} (_ : (if b = -1 then k * t.roots.length else b) ≤ (addedIds adds).length) (_ : F ≤ fuel)
    {ctx : Ctx c} (_ : t.createContext.nns.length ≤ ctx.nns.length), ∃ x, t.getNnsByVector fuel w query k b ctx = .ok x := by
  have hadds : adds ≠ [] := by rintro rfl; simp [slotCount] at hn
  have hfit := h.first_fits hs hroots (h3.imp id fun x => ⟨x, hadds⟩)
  obtain ⟨h1, e, ts, S, C, U, R⟩ := h.reload_complete hn hroots hk hs hck hf hl
  obtain ⟨t', h2, N0, B, hN, L⟩ := h.reload hn hroots hk hf bk u
  rw [hl] at h2
  cases h2
  have hctx : t.createContext.nns.length = s'.createContext.nns.length := by
    simp only [Idx.createContext, L.nns, L.nNodes]
  have hle : (addedIds adds).length ≤ slotCount adds := liveOf_length_le _ _
  have h3' : 3 ≤ (addedIds adds).length ∨ slotCount adds ≤ c.L.K ∧ 0 < slotCount adds := h3.imp id fun x => ⟨x, by omega⟩
  obtain ⟨v, hv, hfirst⟩ := Tree.exists_first (ts := ts) (by rintro rfl; exact h1 (by rw [← S.roots]; rfl))
  have h7 := (R v hv).items_length_eq hle h3'
  refine ⟨Tree.sizes ts + 1, fun {query} hq hfin {k b fuel} hb hF {ctx} hc => ?_⟩
  refine Search.first_tree_room h.wf hkl hM S hq hv (hfin.margins hq.margin S) L.roots_nodup hfirst (hb.trans ?_) (by omega) (by omega)
  rw [h7]
  split
  · exact_mod_cast hle
  · exact le_rfl

section
variable {R : Rng} {sI : List Nat → List Nat} {sP : List (ieee32.V × Nat) → List (ieee32.V × Nat)} {ix n numCPU : Nat}
  {pol : BuildPolicy} {adds : List (Nat × List ieee32.V)} {trees workers : Int} {s s' : Idx (angularCfg ieee32 (bvCodec 4) R sI sP ix n)}

/-- **C92 for `float32`**, from adding to the answer: an angular index with at least `3 * sizeof(TIX)` and at most `2^17` components, at least three items
of moderate norm and at least one tree.  Every search for a query of moderate norm with a budget of at most the number of items returns an answer if
the context comes from `CreateContext`; with a budget of exactly the number of items the answer lists the real nearest neighbours, up to rounding. -/
theorem C92_float32 (h : Session (angularCfg ieee32 (bvCodec 4) R sI sP ix n) numCPU pol adds trees workers s s')
    (hix : 3 * ix ≤ n) (hn : n ≤ 2 ^ 17) (hv : ∀ i v, lastAdded adds i = some v → Moderate32 n v) {q : List ieee32.V} (hq : Moderate32 n q)
    (hroots : s'.roots ≠ []) (h3 : 3 ≤ (addedIds adds).length) (w : World) (k : Int) {fuel : Nat} (hf : 2 * (s'.nNodes - s'.nItems) < fuel) :
    (∀ b : Int, (if b = -1 then k * s'.roots.length else b) ≤ (addedIds adds).length → ∃ x, s'.getNnsByVector fuel w q k b s'.createContext = .ok x) ∧
    ∃ ids ds ctx', s'.getNnsByVector fuel w q k (addedIds adds).length s'.createContext = .ok (ids, ds, ctx') ∧
      AlmostTopK ieee32 val32 fin32 n (2 ^ (-24 : Int)) (trueDist val32 n (lastAdded adds) q) (addedIds adds) k.toNat ids ds := by
  have hpos : 0 < ix := h.wf.layout.szIX_pos
  have hs := splitsKept_of_length h.wf hix h.fits
  have key : ∀ b : Int, (if b = -1 then k * s'.roots.length else b) ≤ (addedIds adds).length → ∃ x, s'.getNnsByVector fuel w q k b s'.createContext = .ok x :=
    fun b hb => h.C92_room hs ieee32_keyLaws angular_minKeys w ⟨hq.length, angular_marginOk hq.length (by omega)⟩
      (h.finiteBelow hs (margins32 h hix hn hv hq w)) hroots (Or.inl h3) hb hf le_rfl
  refine ⟨key, ?_⟩
  have hne : ((addedIds adds).length : Int) ≠ -1 := by omega
  obtain ⟨⟨ids, ds, ctx'⟩, hr⟩ := key (addedIds adds).length (by rw [if_neg hne])
  exact ⟨ids, ds, ctx', hr, C90_float32 h hix hn hv hq hroots w (by rw [if_neg hne]) hr⟩
end

section
variable {R : Rng} {sI : List Nat → List Nat} {sP : List (ieee64.V × Nat) → List (ieee64.V × Nat)} {ix n numCPU : Nat}
  {pol : BuildPolicy} {adds : List (Nat × List ieee64.V)} {trees workers : Int} {s s' : Idx (angularCfg ieee64 (bvCodec 8) R sI sP ix n)}

/-- **C92 for `float64`**, from adding to the answer: an angular index with at least `3 * sizeof(TIX)` and at most `2^46` components, at least three items
of moderate norm and at least one tree.  Every search for a query of moderate norm with a budget of at most the number of items returns an answer if
the context comes from `CreateContext`; with a budget of exactly the number of items the answer lists the real nearest neighbours, up to rounding. -/
theorem C92_float64 (h : Session (angularCfg ieee64 (bvCodec 8) R sI sP ix n) numCPU pol adds trees workers s s')
    (hix : 3 * ix ≤ n) (hn : n ≤ 2 ^ 46) (hv : ∀ i v, lastAdded adds i = some v → Moderate64 n v) {q : List ieee64.V} (hq : Moderate64 n q)
    (hroots : s'.roots ≠ []) (h3 : 3 ≤ (addedIds adds).length) (w : World) (k : Int) {fuel : Nat} (hf : 2 * (s'.nNodes - s'.nItems) < fuel) :
    (∀ b : Int, (if b = -1 then k * s'.roots.length else b) ≤ (addedIds adds).length → ∃ x, s'.getNnsByVector fuel w q k b s'.createContext = .ok x) ∧
    ∃ ids ds ctx', s'.getNnsByVector fuel w q k (addedIds adds).length s'.createContext = .ok (ids, ds, ctx') ∧
      AlmostTopK ieee64 val64 fin64 n (2 ^ (-53 : Int)) (trueDist val64 n (lastAdded adds) q) (addedIds adds) k.toNat ids ds := by
  have hpos : 0 < ix := h.wf.layout.szIX_pos
  have hs := splitsKept_of_length h.wf hix h.fits
  have key : ∀ b : Int, (if b = -1 then k * s'.roots.length else b) ≤ (addedIds adds).length → ∃ x, s'.getNnsByVector fuel w q k b s'.createContext = .ok x :=
    fun b hb => h.C92_room hs ieee64_keyLaws angular_minKeys w ⟨hq.length, angular_marginOk hq.length (by omega)⟩
      (h.finiteBelow hs (margins64 h hix hn hv hq w)) hroots (Or.inl h3) hb hf le_rfl
  refine ⟨key, ?_⟩
  have hne : ((addedIds adds).length : Int) ≠ -1 := by omega
  obtain ⟨⟨ids, ds, ctx'⟩, hr⟩ := key (addedIds adds).length (by rw [if_neg hne])
  exact ⟨ids, ds, ctx', hr, C90_float64 h hix hn hv hq hroots w (by rw [if_neg hne]) hr⟩
end

/-- Three items are needed: with two items, far apart in the numbering, a fresh context has one place and a search with a budget of two panics. -/
theorem C92_two_refuted : ∃ s s', Session (angular32 4 12) 1 .single farAdds 1 1 s s' ∧
    SplitsKept (angular32 4 12) 1 .single (slotCount farAdds) 1 1 ∧ (addedIds farAdds).length = 2 ∧ Moderate32 12 query12 ∧
    (∀ i v, lastAdded farAdds i = some v → Moderate32 12 v) ∧
    ∀ w, ∃ msg, s'.getNnsByVector 100 w query12 2 2 s'.createContext = .error (.panic msg) := by
  obtain ⟨s, s', h, hp⟩ := made_with (c := angular32 4 12) (r := Kiss32.new 0) (adds := farAdds) (trees := 1)
    (fun s' => decide (s'.roots = [21] ∧
      panicked (Search.run (angular32 4 12) 100 s'.bmem s'.nItems s'.roots query12 2 2 s'.createContext) = true))
    (angular32_wf (Or.inl rfl) (by decide)) (legalAdds_of (by decide +kernel)) (by decide +kernel) (by decide +kernel)
  obtain ⟨h1, h3⟩ := of_decide_eq_true hp
  refine ⟨s, s', h, splitsKept_of_length h.wf (by decide) h.fits, by decide +kernel,
    moderate32_of_bits (by decide) (by decide) (by decide +kernel) ⟨0, by decide +kernel⟩, fun i v h => (farAdds_moderate h).1, fun w => ?_⟩
  obtain ⟨N0, B, _⟩ := h.built
  have h0 : 0 < s'.nNodes := by have := B.nNodes; rw [h1] at this; simp at this; omega
  obtain ⟨msg, e⟩ := panicked_true h3
  exact ⟨msg, (B.search w h0 _ _ _ _ _).trans e⟩

/-- The hypotheses of C92 are met by an index of three items in 19 slots with two trees. -/
example : ∃ s s', Session (alt32 16) 1 .single groupAdds 2 1 s s' ∧ SplitsKept (alt32 16) 1 .single (slotCount groupAdds) 2 1 ∧
    (alt32 16).N.KeyLaws ∧ MinKeys (alt32 16) ∧ GoodQuery (alt32 16) eastVec ∧ s'.roots = [20, 22] ∧ (addedIds groupAdds).length = 3 ∧
    ¬ slotCount groupAdds ≤ (alt32 16).L.K ∧
    ∀ w, FiniteBelow s' w eastVec ∧ ∀ fuel, 2 * (s'.nNodes - s'.nItems) < fuel → ∃ x, s'.getNnsByVector fuel w eastVec 1 (-1) s'.createContext = .ok x := by
  obtain ⟨s, s', s'', h, -, h1, -, h2, h3, h4, h5, -, h6, -, h7⟩ := C86_C88_case
  refine ⟨s, s', h, h1, h2, h3, h4, h5, h6, by decide +kernel, fun w => ⟨(h7 w).2.1, fun fuel hf => ?_⟩⟩
  exact h.C92_room h1 h2 h3 w h4 (h7 w).2.1 (by rw [h5]; simp) (Or.inl h6.ge)
    (by rw [h5]; exact le_trans (by decide : (if (-1 : Int) = -1 then 1 * (([20, 22] : List Nat).length : Int) else -1) ≤ 3) (by exact_mod_cast h6.ge)) hf le_rfl

theorem longAdds_moderate : ∀ i v, lastAdded (longAdds 20) i = some v → Moderate32 12 v := by
  intro i v h
  have hi : i < 20 := lastAdded_lt (longAdds 20) i (by rw [h]; rfl) |>.trans_le (by decide +kernel)
  have hv : v = x32 0x3f800000 :: x32 (0x3f800000 + i * 0x100000) :: List.replicate 10 (x32 0) := by
    have key : ∀ i, i < 20 → lastAdded (longAdds 20) i = some (x32 0x3f800000 :: x32 (0x3f800000 + i * 0x100000) :: List.replicate 10 (x32 0)) := by
      decide +kernel
    exact Option.some.inj (h.symm.trans (key i hi))
  subst hv
  refine moderate32_of_bits rfl (by decide) ?_ ⟨0, show 96 * 2 ^ Ieee.f32.mb ≤ Ieee.f32.mag (BitVec.toNat (w := 32) (x32 0x3f800000)) by decide +kernel⟩
  have : ∀ i, i < 20 → ∀ x ∈ (x32 0x3f800000 :: x32 (0x3f800000 + i * 0x100000) :: List.replicate 10 (x32 0) : List ieee32.V),
      Ieee.f32.mag (BitVec.toNat (w := 32) x) ≤ 147 * 2 ^ Ieee.f32.mb := by decide +kernel
  exact this i hi

/-- Twenty items of length 12, three trees with inner nodes, two workers: whatever the workers do, all hypotheses of `C92_float32` hold. -/
example : ∃ s s', Session (oracle32 12) 8 .multi (longAdds 20) 3 2 s s' ∧ 3 * 4 ≤ 12 ∧
    (∀ i v, lastAdded (longAdds 20) i = some v → Moderate32 12 v) ∧ Moderate32 12 query12 ∧ s'.roots.length = 3 ∧
    3 ≤ (addedIds (longAdds 20)).length ∧ (oracle32 12).L.K < slotCount (longAdds 20) := by
  have hc : (oracle32 12).WF := oracle32_wf (by decide)
  have hf : (oracle32 12).L.Fits (treeRoom 8 .multi (slotCount (longAdds 20)) 3 2) := by decide +kernel
  obtain ⟨s, s', h⟩ := multi_session hc (Conc.angular_total oracle_inRange (by decide))
    (Conc.angular_canBalance (by decide)) (fun _ => 0) (longAdds 20) (legalAdds_of (by decide +kernel)) 8 3 2 (W := 2) (by decide) hf
  exact ⟨s, s', h, le_rfl, longAdds_moderate, moderate32_of_bits (by decide) (by decide) (by decide +kernel) ⟨0, by decide +kernel⟩,
    (C10_tree_count h (by simp)).1 (by decide), by decide +kernel, by decide +kernel⟩

end Annoy
