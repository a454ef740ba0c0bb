import Verif.Props.History
import Verif.Props.Room
/-!
# Histories of calls and the real nearest neighbours (C98)
-/
namespace Annoy
open Ieee

section
variable {R : Rng} {sI : List Nat → List Nat} {sP : List (ieee32.V × Nat) → List (ieee32.V × Nat)} {ix n : Nat} {bk : Backend} {numCPU : Nat}
  {creatable : String → Bool}

/-- What an index of ordinary data that is the finished table `t` answers. -/
theorem StoreOf.real32 {x : Env (angularCfg ieee32 (bvCodec 4) R sI sP ix n)} {st : Store ieee32.V}
    (h : StoreOf (angularCfg ieee32 (bvCodec 4) R sI sP ix n) bk numCPU creatable x st) (hix : 3 * ix ≤ n) (hn : n ≤ 2 ^ 17)
    {t : Table ieee32.V} {file : Bool} (ht : st.finished = some (t, file)) (htr : t.HasTrees)
    (hcp : file = true → (angularCfg ieee32 (bvCodec 4) R sI sP ix n).L.CopiesKept (slotCount t.adds))
    (hv : ∀ i v, lastAdded t.adds i = some v → Moderate32 n v) {q : List ieee32.V} (hq : Moderate32 n q) (k : Int) :
    (∀ {b : Int} {fuel : Nat} {ctx ctx' : Ctx (angularCfg ieee32 (bvCodec 4) R sI sP ix n)} {ids : List Nat} {ds : List ieee32.V},
      ((addedIds t.adds).length : Int) ≤ b → x.idx.getNnsByVector fuel x.world q k b ctx = .ok (ids, ds, ctx') →
      AlmostTopK ieee32 val32 fin32 n (2 ^ (-24 : Int)) (trueDist val32 n (lastAdded t.adds) q) (addedIds t.adds) k.toNat ids ds) ∧
    (3 ≤ (addedIds t.adds).length → ∀ ctx : Ctx (angularCfg ieee32 (bvCodec 4) R sI sP ix n),
      x.idx.createContext.nns.length ≤ ctx.nns.length →
      ∃ fuel ids ds ctx', x.idx.getNnsByVector fuel x.world q k (addedIds t.adds).length ctx = .ok (ids, ds, ctx')) := by
  have hp := h.phase
  unfold Store.finished at ht
  have hne : ∀ {b : Int}, ((addedIds t.adds).length : Int) ≤ b → b ≠ -1 := fun hb => by omega
  cases hst : st.phase with
  | adding adds => rw [hst] at ht; cases ht
  | unknown => rw [hst] at ht; cases ht
  | built t' =>
    rw [hst] at hp ht
    cases ht
    obtain ⟨s, hs⟩ := id hp
    have hroots := Makes.hasTrees hp htr
    have hpos : 0 < ix := hs.wf.layout.szIX_pos
    have hsk := splitsKept_of_length hs.wf hix hs.fits
    refine ⟨fun hb hr => C90_float32 hs hix hn hv hq hroots _ (by rw [if_neg (hne hb)]; exact hb) hr, fun h3 ctx hctx => ?_⟩
    obtain ⟨⟨ids, ds, o⟩, hx⟩ := hs.C92_room hsk ieee32_keyLaws angular_minKeys x.world ⟨hq.length, angular_marginOk hq.length (by omega)⟩
      (hs.finiteBelow hsk (margins32 hs hix hn hv hq x.world)) hroots (Or.inl h3) (k := k) (b := (addedIds t.adds).length)
      (by rw [if_neg (hne le_rfl)]; exact le_rfl) (Nat.lt_succ_self _) hctx
    exact ⟨_, _, _, _, hx⟩
  | loaded t' path =>
    rw [hst] at hp ht
    cases ht
    obtain ⟨hf, u, hl⟩ := hp
    obtain ⟨s0, s', N0, hs, hroots, hfile, B, b1, L⟩ := hf.loaded hl
    obtain ⟨h2, -, hk⟩ := hf.readable
    have hpos : 0 < ix := hs.wf.layout.szIX_pos
    have hsk := splitsKept_of_length hs.wf hix hs.fits
    refine ⟨fun hb hr => C90_loaded_float32 hs hix hn hv hq hroots h2 (hcp rfl) hfile hl (by rw [if_neg (hne hb)]; exact hb) hr, fun h3 ctx hctx => ?_⟩
    obtain ⟨F, hF⟩ := hs.C92_room_loaded h2 hroots hk hsk (hcp rfl) ieee32_keyLaws angular_minKeys hfile hl (Or.inl h3)
    obtain ⟨⟨ids, ds, o⟩, hx⟩ := hF ⟨hq.length, angular_marginOk hq.length (by omega)⟩
      (hs.finiteBelow_loaded h2 hroots hk hsk (hcp rfl) hfile hl (margins32 hs hix hn hv hq x.world)) (k := k) (b := (addedIds t.adds).length)
      (by rw [if_neg (hne le_rfl)]; exact le_rfl) le_rfl hctx
    exact ⟨_, _, _, _, hx⟩

/-- **C98 for `float32`.**  Whatever calls a program has made on a new angular index (at least `3 * sizeof(TIX)` and at most `2^17` components): when
the table holds a finished index of items of moderate norm, with a tree, then every search for a vector of moderate norm with a budget of at least
the number of items returns the nearest items by the real distance, up to rounding, and if there are three items such a search with a budget of the number of
items is answered in every context that `CreateContext` gives. -/
theorem C98_float32 (hc : (angularCfg ieee32 (bvCodec 4) R sI sP ix n).WF) (hix : 3 * ix ≤ n) (hn : n ≤ 2 ^ 17)
    {w : World} (hw : w.Tidy) (r : R.σ) (hint : Nat)
    {h : List (Req (angularCfg ieee32 (bvCodec 4) R sI sP ix n) × Resp (angularCfg ieee32 (bvCodec 4) R sI sP ix n))}
    {y : Env (angularCfg ieee32 (bvCodec 4) R sI sP ix n)}
    (hs : ServesAll bk numCPU h ⟨w, Idx.new (angularCfg ieee32 (bvCodec 4) R sI sP ix n) r hint⟩ y)
    {t : Table ieee32.V} {file : Bool}
    (ht : ((Store.fresh ieee32.V).afterAll (angularCfg ieee32 (bvCodec 4) R sI sP ix n) bk numCPU w.creatable h).finished = some (t, file))
    (htr : t.HasTrees) (hcp : file = true → (angularCfg ieee32 (bvCodec 4) R sI sP ix n).L.CopiesKept (slotCount t.adds))
    (hv : ∀ i v, lastAdded t.adds i = some v → Moderate32 n v) {q : List ieee32.V} (hq : Moderate32 n q) (k : Int) :
    (∀ {b : Int} {ctx ctx' : Ctx (angularCfg ieee32 (bvCodec 4) R sI sP ix n)} {ids : List Nat} {ds : List ieee32.V}
      {z : Env (angularCfg ieee32 (bvCodec 4) R sI sP ix n)}, ((addedIds t.adds).length : Int) ≤ b →
      Serves bk numCPU (.byVector q k b ctx) y (.found ids ds ctx') z →
      AlmostTopK ieee32 val32 fin32 n (2 ^ (-24 : Int)) (trueDist val32 n (lastAdded t.adds) q) (addedIds t.adds) k.toNat ids ds) ∧
    (3 ≤ (addedIds t.adds).length → ∀ {ctx : Ctx (angularCfg ieee32 (bvCodec 4) R sI sP ix n)}
      {z : Env (angularCfg ieee32 (bvCodec 4) R sI sP ix n)}, Serves bk numCPU .createContext y (.context ctx) z →
      ∃ ids ds ctx', Serves bk numCPU (.byVector q k (addedIds t.adds).length ctx) z (.found ids ds ctx') z) := by
  have hpos : 0 < ix := hc.layout.szIX_pos
  have hg : ∀ q : List ieee32.V, q.length = n → GoodQuery (angularCfg ieee32 (bvCodec 4) R sI sP ix n) q :=
    fun q hq => ⟨hq, angular_marginOk hq (by omega)⟩
  obtain ⟨h1, h2⟩ := (StoreOf.all hc ieee32_lawful hg hs (StoreOf.new hc hw r hint)).2.real32 hix hn ht htr hcp hv hq k
  refine ⟨fun hb hr => ?_, fun h3 {ctx z} hctx => ?_⟩
  · cases hr with
    | byVector fuel hx => exact h1 hb hx
  · cases hctx with
    | createContext =>
      obtain ⟨fuel, ids, ds, o, hx⟩ := h2 h3 _ le_rfl
      exact ⟨ids, ds, o, .byVector fuel hx⟩
end

section
variable {R : Rng} {sI : List Nat → List Nat} {sP : List (ieee64.V × Nat) → List (ieee64.V × Nat)} {ix n : Nat} {bk : Backend} {numCPU : Nat}
  {creatable : String → Bool}

/-- What an index of ordinary data that is the finished table `t` answers. -/
theorem StoreOf.real64 {x : Env (angularCfg ieee64 (bvCodec 8) R sI sP ix n)} {st : Store ieee64.V}
    (h : StoreOf (angularCfg ieee64 (bvCodec 8) R sI sP ix n) bk numCPU creatable x st) (hix : 3 * ix ≤ n) (hn : n ≤ 2 ^ 46)
    {t : Table ieee64.V} {file : Bool} (ht : st.finished = some (t, file)) (htr : t.HasTrees)
    (hcp : file = true → (angularCfg ieee64 (bvCodec 8) R sI sP ix n).L.CopiesKept (slotCount t.adds))
    (hv : ∀ i v, lastAdded t.adds i = some v → Moderate64 n v) {q : List ieee64.V} (hq : Moderate64 n q) (k : Int) :
    (∀ {b : Int} {fuel : Nat} {ctx ctx' : Ctx (angularCfg ieee64 (bvCodec 8) R sI sP ix n)} {ids : List Nat} {ds : List ieee64.V},
      ((addedIds t.adds).length : Int) ≤ b → x.idx.getNnsByVector fuel x.world q k b ctx = .ok (ids, ds, ctx') →
      AlmostTopK ieee64 val64 fin64 n (2 ^ (-53 : Int)) (trueDist val64 n (lastAdded t.adds) q) (addedIds t.adds) k.toNat ids ds) ∧
    (3 ≤ (addedIds t.adds).length → ∀ ctx : Ctx (angularCfg ieee64 (bvCodec 8) R sI sP ix n),
      x.idx.createContext.nns.length ≤ ctx.nns.length →
      ∃ fuel ids ds ctx', x.idx.getNnsByVector fuel x.world q k (addedIds t.adds).length ctx = .ok (ids, ds, ctx')) := by
  have hp := h.phase
  unfold Store.finished at ht
  have hne : ∀ {b : Int}, ((addedIds t.adds).length : Int) ≤ b → b ≠ -1 := fun hb => by omega
  cases hst : st.phase with
  | adding adds => rw [hst] at ht; cases ht
  | unknown => rw [hst] at ht; cases ht
  | built t' =>
    rw [hst] at hp ht
    cases ht
    obtain ⟨s, hs⟩ := id hp
    have hroots := Makes.hasTrees hp htr
    have hpos : 0 < ix := hs.wf.layout.szIX_pos
    have hsk := splitsKept_of_length hs.wf hix hs.fits
    refine ⟨fun hb hr => C90_float64 hs hix hn hv hq hroots _ (by rw [if_neg (hne hb)]; exact hb) hr, fun h3 ctx hctx => ?_⟩
    obtain ⟨⟨ids, ds, o⟩, hx⟩ := hs.C92_room hsk ieee64_keyLaws angular_minKeys x.world ⟨hq.length, angular_marginOk hq.length (by omega)⟩
      (hs.finiteBelow hsk (margins64 hs hix hn hv hq x.world)) hroots (Or.inl h3) (k := k) (b := (addedIds t.adds).length)
      (by rw [if_neg (hne le_rfl)]; exact le_rfl) (Nat.lt_succ_self _) hctx
    exact ⟨_, _, _, _, hx⟩
  | loaded t' path =>
    rw [hst] at hp ht
    cases ht
    obtain ⟨hf, u, hl⟩ := hp
    obtain ⟨s0, s', N0, hs, hroots, hfile, B, b1, L⟩ := hf.loaded hl
    obtain ⟨h2, -, hk⟩ := hf.readable
    have hpos : 0 < ix := hs.wf.layout.szIX_pos
    have hsk := splitsKept_of_length hs.wf hix hs.fits
    refine ⟨fun hb hr => C90_loaded_float64 hs hix hn hv hq hroots h2 (hcp rfl) hfile hl (by rw [if_neg (hne hb)]; exact hb) hr, fun h3 ctx hctx => ?_⟩
    obtain ⟨F, hF⟩ := hs.C92_room_loaded h2 hroots hk hsk (hcp rfl) ieee64_keyLaws angular_minKeys hfile hl (Or.inl h3)
    obtain ⟨⟨ids, ds, o⟩, hx⟩ := hF ⟨hq.length, angular_marginOk hq.length (by omega)⟩
      (hs.finiteBelow_loaded h2 hroots hk hsk (hcp rfl) hfile hl (margins64 hs hix hn hv hq x.world)) (k := k) (b := (addedIds t.adds).length)
      (by rw [if_neg (hne le_rfl)]; exact le_rfl) le_rfl hctx
    exact ⟨_, _, _, _, hx⟩

/-- **C98 for `float64`.**  Whatever calls a program has made on a new angular index (at least `3 * sizeof(TIX)` and at most `2^46` components): when
the table holds a finished index of items of moderate norm, with a tree, then every search for a vector of moderate norm with a budget of at least
the number of items returns the nearest items by the real distance, up to rounding, and if there are three items such a search with a budget of the number of
items is answered in every context that `CreateContext` gives. -/
theorem C98_float64 (hc : (angularCfg ieee64 (bvCodec 8) R sI sP ix n).WF) (hix : 3 * ix ≤ n) (hn : n ≤ 2 ^ 46)
    {w : World} (hw : w.Tidy) (r : R.σ) (hint : Nat)
    {h : List (Req (angularCfg ieee64 (bvCodec 8) R sI sP ix n) × Resp (angularCfg ieee64 (bvCodec 8) R sI sP ix n))}
    {y : Env (angularCfg ieee64 (bvCodec 8) R sI sP ix n)}
    (hs : ServesAll bk numCPU h ⟨w, Idx.new (angularCfg ieee64 (bvCodec 8) R sI sP ix n) r hint⟩ y)
    {t : Table ieee64.V} {file : Bool}
    (ht : ((Store.fresh ieee64.V).afterAll (angularCfg ieee64 (bvCodec 8) R sI sP ix n) bk numCPU w.creatable h).finished = some (t, file))
    (htr : t.HasTrees) (hcp : file = true → (angularCfg ieee64 (bvCodec 8) R sI sP ix n).L.CopiesKept (slotCount t.adds))
    (hv : ∀ i v, lastAdded t.adds i = some v → Moderate64 n v) {q : List ieee64.V} (hq : Moderate64 n q) (k : Int) :
    (∀ {b : Int} {ctx ctx' : Ctx (angularCfg ieee64 (bvCodec 8) R sI sP ix n)} {ids : List Nat} {ds : List ieee64.V}
      {z : Env (angularCfg ieee64 (bvCodec 8) R sI sP ix n)}, ((addedIds t.adds).length : Int) ≤ b →
      Serves bk numCPU (.byVector q k b ctx) y (.found ids ds ctx') z →
      AlmostTopK ieee64 val64 fin64 n (2 ^ (-53 : Int)) (trueDist val64 n (lastAdded t.adds) q) (addedIds t.adds) k.toNat ids ds) ∧
    (3 ≤ (addedIds t.adds).length → ∀ {ctx : Ctx (angularCfg ieee64 (bvCodec 8) R sI sP ix n)}
      {z : Env (angularCfg ieee64 (bvCodec 8) R sI sP ix n)}, Serves bk numCPU .createContext y (.context ctx) z →
      ∃ ids ds ctx', Serves bk numCPU (.byVector q k (addedIds t.adds).length ctx) z (.found ids ds ctx') z) := by
  have hpos : 0 < ix := hc.layout.szIX_pos
  have hg : ∀ q : List ieee64.V, q.length = n → GoodQuery (angularCfg ieee64 (bvCodec 8) R sI sP ix n) q :=
    fun q hq => ⟨hq, angular_marginOk hq (by omega)⟩
  obtain ⟨h1, h2⟩ := (StoreOf.all hc ieee64_lawful hg hs (StoreOf.new hc hw r hint)).2.real64 hix hn ht htr hcp hv hq k
  refine ⟨fun hb hr => ?_, fun h3 {ctx z} hctx => ?_⟩
  · cases hr with
    | byVector fuel hx => exact h1 hb hx
  · cases hctx with
    | createContext =>
      obtain ⟨fuel, ids, ds, o, hx⟩ := h2 h3 _ le_rfl
      exact ⟨ids, ds, o, .byVector fuel hx⟩
end

/-- Twenty items, three trees by two workers, saved: the history exists on an index of the repository, and meets the hypotheses of `C98_float32`. -/
example : (oneFile "a" [1]).Tidy ∧ 3 * 4 ≤ 12 ∧ Moderate32 12 query12 ∧ (∀ i v, lastAdded (longAdds 20) i = some v → Moderate32 12 v) ∧
    (angular32 4 12).L.CopiesKept (slotCount (longAdds 20)) ∧ 3 ≤ (addedIds (longAdds 20)).length ∧
    ∃ h y, ServesAll .mmap 4 h ⟨oneFile "a" [1], Idx.new (angular32 4 12) (Kiss32.new 0) 0⟩ y ∧
      ((Store.fresh ieee32.V).afterAll (angular32 4 12) .mmap 4 (oneFile "a" [1]).creatable h).finished = some (⟨longAdds 20, 3, 2, .multi⟩, true) := by
  refine ⟨oneFile_tidy _ _, le_rfl, moderate32_of_bits (by decide) (by decide) (by decide +kernel) ⟨0, by decide +kernel⟩, longAdds_moderate,
    Or.inl (by decide +kernel), by decide +kernel, _,
    build_save_history (.angular32 (by decide) (by decide)) (oneFile_tidy _ _) _ (legalAdds_of (by decide +kernel)) (fun _ => by decide) (by decide +kernel)
      ⟨by decide +kernel, ⟨Or.inl (by decide), (fun _ => by decide)⟩, by unfold Layout.CountKept; decide +kernel⟩ (path := "b") rfl⟩

end Annoy
