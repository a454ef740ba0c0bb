import Verif.Proof.Total
/-!
`Build` with one worker finishes: more fuel never changes a result, and if random sides are eventually
balanced there is enough fuel.
-/
namespace Annoy

/-- `k` rounds of random sides for `ids`, starting with `(l, rt)`: the sides and the generator after them. -/
def drawSides (c : Cfg) (ids : List Nat) : Nat → c.R.σ → List Nat × List Nat × c.R.σ
  | 0, r => ([], [], r)
  | 1, r =>
    match Idx.assignSides (c := c) (fun _ r => .ok (c.R.nextSide r)) ids r with
    | .ok x => x
    | .error _ => ([], [], r)
  | k + 2, r =>
    match Idx.assignSides (c := c) (fun _ r => .ok (c.R.nextSide r)) ids r with
    | .ok x => drawSides c ids (k + 1) x.2.2
    | .error _ => ([], [], r)

/-- From every state of the generator some later round of random sides is balanced. -/
def EventuallyBalanced (c : Cfg) : Prop := ∀ (ids : List Nat) (r : c.R.σ), 2 ≤ ids.length → ids.length < c.L.range →
  ∃ k, c.le99 (drawSides c ids (k + 1) r).1.length (drawSides c ids (k + 1) r).2.1.length = true

namespace Idx
variable {c : Cfg}

theorem assignSides_ok {side : Nat → c.R.σ → Except Err (Side × c.R.σ)} {ids : List Nat}
    (h : ∀ j ∈ ids, ∀ r, ∃ x, side j r = .ok x) : ∀ r, ∃ x, assignSides side ids r = .ok x := by
  induction ids with
  | nil => intro r; exact ⟨_, rfl⟩
  | cons j ids ih =>
    intro r
    obtain ⟨⟨sd, r1⟩, h1⟩ := h j (by simp) r
    obtain ⟨⟨l, rt, r2⟩, h2⟩ := ih (fun j hj => h j (by simp [hj])) r1
    unfold assignSides
    simp only [bind, Except.bind, h1, h2]
    cases sd <;> exact ⟨_, rfl⟩

theorem trySplit_ok (ht : Conc.Total c) {mem : Block} {addrs ids : List Nat} (ha : 2 ≤ addrs.length)
    (hi : ∀ j ∈ ids, ∃ a, getNode c.L mem j = .ok a) (k : Nat) :
    ∀ m l rt r, ∃ x, trySplit c mem addrs ids k m l rt r = .ok x := by
  induction k with
  | zero => intro m l rt r; exact ⟨_, rfl⟩
  | succ k ih =>
    intro m l rt r
    unfold trySplit
    cases h1 : c.D.createSplit mem.get addrs r m with
    | error e => exact absurd h1 (ht.createSplit _ _ _ _ e ha)
    | ok v =>
      obtain ⟨m1, r1⟩ := v
      obtain ⟨⟨l1, rt1, r2⟩, h2⟩ := assignSides_ok (c := c) (side := sideOfItem c mem m1) (ids := ids) (by
        intro j hj r
        obtain ⟨a, h⟩ := hi j hj
        unfold sideOfItem
        simp only [bind, Except.bind, h]
        cases h3 : c.D.side m1 (Node.vec c.L c.C mem.get a) r with
        | error e => exact absurd h3 (ht.side _ _ _ e (by simp [Node.vec]))
        | ok x => exact ⟨_, rfl⟩) r1
      simp only [bind, Except.bind, h2]
      split
      · exact ⟨_, rfl⟩
      · exact ih _ _ _ _

theorem randomize_mono {ids : List Nat} {k : Nat} : ∀ {m l rt} {r : c.R.σ} {x}, randomize c ids k m l rt r = .ok x →
    ∀ k', k ≤ k' → randomize c ids k' m l rt r = .ok x := by
  induction k with
  | zero => intro m l rt r x h; cases h
  | succ k ih =>
    intro m l rt r x h k' hk
    obtain ⟨k', rfl⟩ : ∃ j, k' = j + 1 := ⟨k' - 1, by omega⟩
    unfold randomize at h ⊢
    split
    · next h1 => rw [if_pos h1] at h; exact h
    · next h1 =>
      rw [if_neg h1] at h
      simp only [bind, Except.bind] at h ⊢
      split at h
      · cases h
      · exact ih h _ (by omega)

/-- If the `k + 1`-th round of random sides is balanced then no more rounds are drawn. -/
theorem randomize_within {ids : List Nat} {k : Nat} {r : c.R.σ}
    (hk : c.le99 (drawSides c ids (k + 1) r).1.length (drawSides c ids (k + 1) r).2.1.length = true) (m : Bytes) (l rt : List Nat) :
    ∃ x, randomize c ids (k + 2) m l rt r = .ok x := by
  induction k generalizing m l rt r with
  | zero =>
    unfold randomize
    split
    · exact ⟨_, rfl⟩
    · obtain ⟨⟨l1, rt1, r1⟩, h1⟩ := assignSides_ok (c := c) (side := fun _ r => .ok (c.R.nextSide r)) (ids := ids)
        (fun _ _ _ => ⟨_, rfl⟩) r
      simp only [bind, Except.bind, h1]
      unfold drawSides at hk
      rw [h1] at hk
      unfold randomize
      rw [if_pos hk]
      exact ⟨_, rfl⟩
  | succ k ih =>
    unfold randomize
    split
    · exact ⟨_, rfl⟩
    · obtain ⟨⟨l1, rt1, r1⟩, h1⟩ := assignSides_ok (c := c) (side := fun _ r => .ok (c.R.nextSide r)) (ids := ids)
        (fun _ _ _ => ⟨_, rfl⟩) r
      simp only [bind, Except.bind, h1]
      apply ih
      unfold drawSides at hk
      rw [h1] at hk
      exact hk

theorem randomize_ok (hb : EventuallyBalanced c) {ids : List Nat} (h2 : 2 ≤ ids.length) (hlt : ids.length < c.L.range) (m : Bytes) (l rt : List Nat)
    (r : c.R.σ) : ∃ k x, randomize c ids k m l rt r = .ok x := by
  obtain ⟨k, hk⟩ := hb ids r h2 hlt
  exact ⟨k + 2, randomize_within hk m l rt⟩

theorem chooseSplit_mono {rf : Nat} {s : Idx c} {ids : List Nat} {x} (h : chooseSplit rf s ids = .ok x) {rf' : Nat}
    (hr : rf ≤ rf') : chooseSplit rf' s ids = .ok x := by
  unfold chooseSplit at h ⊢
  simp only [bind, Except.bind] at h ⊢
  split at h
  · cases h
  · split at h
    · cases h
    · split at h
      · cases h
      · next v hv =>
        rw [randomize_mono hv _ hr]
        exact h

theorem chooseSplit_ok (hc : c.WF) (ht : Conc.Total c) (hb : EventuallyBalanced c) {s : Idx c} {n : Nat} (hs : s.BInv n)
    {ids : List Nat} (h2 : 2 ≤ ids.length) (hlen : ids.length ≤ n) (hi : ∀ x ∈ ids, x < n) : ∃ rf x, chooseSplit rf s ids = .ok x := by
  have hg : ∀ x ∈ ids, getNode c.L s.bmem x = .ok (x * c.L.nodeSize) := fun x hx =>
    (hs.memOK.getNode (by have := hi x hx; have := hs.n_le; have := hs.le_size; omega)).1
  have hm : ids.mapM (getNode c.L s.bmem) = .ok (ids.map fun x => x * c.L.nodeSize) := mapM_ok hg
  obtain ⟨⟨m1, l1, rt1, r1⟩, h1⟩ := trySplit_ok ht (mem := s.bmem) (addrs := ids.map fun x => x * c.L.nodeSize)
    (by simpa using h2) (fun j hj => ⟨_, hg j hj⟩) 3 zeros [] [] s.rng
  have hlt : ids.length < c.L.range := by
    have h1 : n * 1 ≤ n * c.L.nodeSize := Nat.mul_le_mul_left _ hc.layout.nodeSize_pos
    have h2 : n * c.L.nodeSize ≤ s.nodesSize * c.L.nodeSize := Nat.mul_le_mul_right _ (hs.n_le.trans hs.le_size)
    have := hs.memOK.fits
    omega
  obtain ⟨rf, ⟨m2, l2, rt2, r2⟩, h3⟩ := randomize_ok hb h2 hlt m1 l1 rt1 r1
  refine ⟨rf, (m2, l2, rt2, { s with rng := r2 }), ?_⟩
  · unfold chooseSplit
    simp only [bind, Except.bind, hm, h1, h3]

theorem makeTree_mono {rf tf : Nat} : ∀ {s : Idx c} {ids : List Nat} {isRoot : Bool} {x},
    makeTree rf tf s ids isRoot = .ok x → ∀ {rf' tf'}, rf ≤ rf' → tf ≤ tf' →
    makeTree rf' tf' s ids isRoot = .ok x := by
  induction tf with
  | zero => intro s ids isRoot x h; cases h
  | succ tf ih =>
    intro s ids isRoot x h rf' tf' hr ht
    obtain ⟨tf', rfl⟩ : ∃ j, tf' = j + 1 := ⟨tf' - 1, by omega⟩
    have ht' : tf ≤ tf' := by omega
    unfold makeTree at h ⊢
    split
    · exact h
    · next hnot =>
      split at h
      · exact absurd rfl (hnot _ rfl)
      · split
        · next h1 => rw [if_pos h1] at h; exact h
        · next h1 =>
          rw [if_neg h1] at h
          simp only [bind, Except.bind] at h ⊢
          split at h
          · cases h
          · next v hv =>
            rw [chooseSplit_mono hv hr]
            obtain ⟨m, l, rt, s1⟩ := v
            dsimp only at h ⊢
            split
            · next h2 =>
              rw [if_pos h2] at h
              split at h
              · cases h
              · next v1 hv1 =>
                rw [ih hv1 hr ht']
                dsimp only
                split at h
                · cases h
                · next v2 hv2 =>
                  rw [ih hv2 hr ht']
                  exact h
            · next h2 =>
              rw [if_neg h2] at h
              split at h
              · cases h
              · next v1 hv1 =>
                rw [ih hv1 hr ht']
                dsimp only
                split at h
                · cases h
                · next v2 hv2 =>
                  rw [ih hv2 hr ht']
                  exact h

/-- `makeTree` finishes; the recursion is no deeper than the number of items. -/
theorem makeTree_ok (hc : c.WF) (ht : Conc.Total c) (hb : EventuallyBalanced c) (n : Nat) (k : Nat) :
    ∀ (s : Idx c) (ids : List Nat) (isRoot : Bool), ids.length = k →
    s.BInv n → c.L.Fits (s.nNodes + cap ids.length) → ids.length ≤ n → (isRoot = false ∨ c.L.K < n → ids ≠ []) →
    (∀ x ∈ ids, IsItem c.L s.alloc.data n x) →
    ∃ rf x, makeTree rf (k + 1) s ids isRoot = .ok x := by
  have hL := hc.layout
  have hK := hL.K_ge
  induction k using Nat.strong_induction_on with
  | _ k ih =>
  intro s ids isRoot hk hs hfit hlen hne hitems
  unfold makeTree
  split
  · exact ⟨0, _, rfl⟩
  · next hnot =>
    have hcap : 1 ≤ cap ids.length := le_max_left _ _
    by_cases hbr : ids.length ≤ c.L.K ∧ (isRoot = false ∨ s.nItems ≤ c.L.K ∨ ids.length = 1)
    · obtain ⟨s', h1, _⟩ := makeBucket_spec hc hs ids isRoot (hfit.mono (by omega)) hbr.1
        (fun x hx => (hitems x hx).1)
      exact ⟨0, _, by rw [if_pos hbr]; exact h1⟩
    · have h2 : 2 ≤ ids.length := by
        rw [hs.nItems] at hbr
        by_contra hlt
        have h0 : ids ≠ [] := by
          apply hne
          by_contra h3
          push Not at h3
          apply hbr
          exact ⟨by omega, Or.inr (Or.inl h3.2)⟩
        have h1 : ids.length = 1 := by
          have := List.length_pos_iff.2 h0
          omega
        exact hbr ⟨by omega, Or.inr (Or.inr h1)⟩
      obtain ⟨rf0, ⟨m, l, rt, s1⟩, h1⟩ := chooseSplit_ok hc ht hb hs h2 hlen (fun x hx => (hitems x hx).1)
      obtain ⟨hp, hl, hrt, r, rfl⟩ := chooseSplit_spec hc _ _ _ h1
      have hl1 := List.length_pos_iff.2 hl
      have hr1 := List.length_pos_iff.2 hrt
      have hsum : l.length + rt.length = ids.length := by
        have := hp.length_eq
        rwa [List.length_append] at this
      have hcaps : cap l.length + cap rt.length + 1 ≤ cap ids.length := by unfold cap; omega
      have hiL : ∀ x ∈ l, IsItem c.L s.alloc.data n x := fun x hx =>
        hitems x (hp.mem_iff.1 (by simp [hx]))
      have hiR : ∀ x ∈ rt, IsItem c.L s.alloc.data n x := fun x hx =>
        hitems x (hp.mem_iff.1 (by simp [hx]))
      -- two subtrees one after the other
      have two : ∀ (a b : List Nat), a ≠ [] → b ≠ [] → a.length + b.length = ids.length →
          (∀ x ∈ a, IsItem c.L s.alloc.data n x) → (∀ x ∈ b, IsItem c.L s.alloc.data n x) →
          ∃ rf ca sa cb sb, makeTree rf k ({ s with rng := r } : Idx c) a false = .ok (ca, sa) ∧
            makeTree rf k sa b false = .ok (cb, sb) ∧ sb.BInv n ∧ c.L.Fits (sb.nNodes + 1) := by
        intro a b ha hb' hab hia hib
        have ha1 := List.length_pos_iff.2 ha
        have hb1 := List.length_pos_iff.2 hb'
        have hcaps : cap a.length + cap b.length + 1 ≤ cap ids.length := by unfold cap; omega
        have hfa : c.L.Fits (({ s with rng := r } : Idx c).nNodes + cap a.length) := by
          apply hfit.mono
          show s.nNodes + _ ≤ _
          omega
        obtain ⟨rfa, ⟨ca, sa⟩, h3⟩ := ih a.length (by omega) { s with rng := r } a false rfl (hs.rng r)
          hfa (by omega) (fun _ => ha) hia
        obtain ⟨E1, N1, _⟩ := makeTree_spec hc rfa n _ _ a false ca sa (hs.rng r) h3 hfa
          (by omega) (fun _ => ha) hia (by simp)
        have N1' : sa.nNodes ≤ s.nNodes + cap a.length := N1
        have hfb : c.L.Fits (sa.nNodes + cap b.length) := hfit.mono (by omega)
        have hib' : ∀ x ∈ b, IsItem c.L sa.alloc.data n x := by
          intro x hx
          have := hib x hx
          refine ⟨this.1, ?_⟩
          have e := (E1.sameNode (i := x) (by
            show x < s.nNodes
            have := this.1; have := hs.n_le; omega)).nd hL
          rw [← e]
          exact this.2
        obtain ⟨rfb, ⟨cb, sb⟩, h4⟩ := ih b.length (by omega) sa b false rfl E1.inv hfb (by omega)
          (fun _ => hb') hib'
        obtain ⟨E2, N2, _⟩ := makeTree_spec hc rfb n _ _ b false cb sb E1.inv h4 hfb
          (by omega) (fun _ => hb') hib' (by simp)
        refine ⟨max rfa rfb, ca, sa, cb, sb, makeTree_mono h3 (le_max_left _ _) (by omega),
          makeTree_mono h4 (le_max_right _ _) (by omega), E2.inv, hfit.mono (by omega)⟩
      by_cases hlr : l.length > rt.length
      · obtain ⟨rf, ca, sa, cb, sb, g1, g2, g3, g4⟩ := two rt l hrt hl (by omega) hiR hiL
        obtain ⟨s', g5, _⟩ := placeSplit_spec hc g3 (Node.setChildren c.L (Node.setNDesc c.L m 0
          (if isRoot then s.nItems else ids.length)) 0 [cb, ca]) g4
        refine ⟨max rf0 rf, (sb.nNodes, s'), ?_⟩
        · rw [if_neg hbr]
          simp only [bind, Except.bind, chooseSplit_mono h1 (le_max_left rf0 rf), if_pos hlr,
            makeTree_mono g1 (le_max_right rf0 rf) le_rfl, makeTree_mono g2 (le_max_right rf0 rf) le_rfl]
          exact g5
      · obtain ⟨rf, ca, sa, cb, sb, g1, g2, g3, g4⟩ := two l rt hl hrt hsum hiL hiR
        obtain ⟨s', g5, _⟩ := placeSplit_spec hc g3 (Node.setChildren c.L (Node.setNDesc c.L m 0
          (if isRoot then s.nItems else ids.length)) 0 [ca, cb]) g4
        refine ⟨max rf0 rf, (sb.nNodes, s'), ?_⟩
        · rw [if_neg hbr]
          simp only [bind, Except.bind, chooseSplit_mono h1 (le_max_left rf0 rf), if_neg hlr,
            makeTree_mono g1 (le_max_right rf0 rf) le_rfl, makeTree_mono g2 (le_max_right rf0 rf) le_rfl]
          exact g5

theorem threadLoop_mono {rf tf : Nat} {trees : Int} {lf : Nat} : ∀ {s : Idx c} {done : List Nat} {x},
    threadLoop rf tf trees lf s done = .ok x → ∀ {rf' tf' lf'}, rf ≤ rf' → tf ≤ tf' → lf ≤ lf' →
    threadLoop rf' tf' trees lf' s done = .ok x := by
  induction lf with
  | zero => intro s done x h; cases h
  | succ lf ih =>
    intro s done x h rf' tf' lf' hr ht hl
    obtain ⟨lf', rfl⟩ : ∃ j, lf' = j + 1 := ⟨lf' - 1, by omega⟩
    unfold threadLoop at h ⊢
    by_cases h1 : (if trees = -1 then s.nNodes ≥ c.L.wrap (2 * s.nItems) else (done.length : Int) ≥ trees)
    · rw [if_pos h1] at h ⊢
      exact h
    · rw [if_neg h1] at h ⊢
      simp only [bind, Except.bind] at h ⊢
      split at h
      · cases h
      · split at h
        · cases h
        · next v hv =>
          rw [makeTree_mono hv hr ht]
          exact ih h hr ht (by omega)

/-- The loop of `ThreadBuild` ends: after at most `trees`, or `2n`, trees. -/
theorem threadLoop_ok (hc : c.WF) (ht : Conc.Total c) (hb : EventuallyBalanced c) (n : Nat) (trees : Int)
    (m : Nat → Option (List c.N.V)) (B : Nat) (hB : c.L.Fits B)
    (hBT : trees ≠ -1 → n + trees.toNat * cap (liveOf m n).length ≤ B)
    (hBM : trees = -1 → 2 * n + cap (liveOf m n).length ≤ B) (lf : Nat) :
    ∀ (s : Idx c) (done : List Nat),
    s.BInv n → s.Slots m n → s.nNodes ≤ n + done.length * cap (liveOf m n).length →
    (trees = -1 → 2 * n + 1 ≤ s.nNodes + lf) → (trees ≠ -1 → trees.toNat + 1 ≤ done.length + lf) → 0 < lf →
    ∃ rf x, threadLoop rf ((liveOf m n).length + 1) trees lf s done = .ok x := by
  have hL := hc.layout
  have hp := hL.nodeSize_pos
  induction lf with
  | zero => intro s done _ _ _ _ _ h; omega
  | succ lf ih =>
    intro s done hs hsl hcap h1 h2 _
    have hcap1 : 1 ≤ cap (liveOf m n).length := le_max_left _ _
    unfold threadLoop
    by_cases hstop : (if trees = -1 then s.nNodes ≥ c.L.wrap (2 * s.nItems) else (done.length : Int) ≥ trees)
    · exact ⟨0, (done, s), by rw [if_pos hstop]⟩
    · have hgo := hstop
      rw [hs.nItems] at hgo
      have hli := liveItems_eq hs hsl
      have h2n : trees = -1 → c.L.wrap (2 * n) = 2 * n := by
        intro ht
        apply c.L.wrap_eq
        have := hBM ht
        have := hB.lt_range hp
        omega
      have hroom : s.nNodes + cap (liveOf m n).length ≤ B := by
        by_cases ht : trees = -1
        · rw [if_pos ht, h2n ht] at hgo
          have := hBM ht
          omega
        · rw [if_neg ht] at hgo
          have h1 := hBT ht
          have h2 : done.length + 1 ≤ trees.toNat := by omega
          have h3 := Nat.mul_le_mul_right (cap (liveOf m n).length) h2
          rw [Nat.add_mul] at h3
          omega
      have hne : true = false ∨ c.L.K < n → liveOf m n ≠ [] := by
        intro h
        have hn : 0 < n := by
          rcases h with h | h
          · cases h
          · omega
        exact List.ne_nil_of_mem (mem_liveOf.2 ⟨(by omega : n - 1 < n), hsl.top hn⟩)
      obtain ⟨rf1, ⟨root, s1⟩, g1⟩ := makeTree_ok hc ht hb n _ s (liveOf m n) true rfl hs (hB.mono hroom)
        (liveOf_length_le m n) hne (fun x hx => hsl.isItem hx)
      obtain ⟨M1, M2, M3, M4, -, -⟩ := makeTree_spec hc rf1 n _ s (liveOf m n) true root s1 hs g1
        (hB.mono hroom) (liveOf_length_le m n) (by simp) (fun x hx => hsl.isItem hx)
        (fun _ h1 hK => hsl.lone hL h1 hK)
      obtain ⟨M6, M7⟩ := M4 rfl
      have hsl1 := hsl.ext hL hs.n_le M1
      have e1 : (done ++ [root]).length = done.length + 1 := by simp
      obtain ⟨rf2, x, g2⟩ := ih s1 (done ++ [root]) M1.inv hsl1 (by rw [e1, Nat.add_mul]; omega)
        (fun ht => by have := h1 ht; omega) (fun ht => by have := h2 ht; omega) (by
          by_cases ht : trees = -1
          · have := h1 ht
            rw [if_pos ht, h2n ht] at hgo
            omega
          · have := h2 ht
            rw [if_neg ht] at hgo
            omega)
      refine ⟨max rf1 rf2, x, ?_⟩
      rw [if_neg hstop]
      simp only [bind, Except.bind, hli, makeTree_mono g1 (le_max_left rf1 rf2) le_rfl]
      exact threadLoop_mono g2 (le_max_right _ _) le_rfl le_rfl

/-- `Build(-1)` runs like `Build(T)` for its number of trees `T`, and would have gone on before. -/
theorem threadLoop_full {rf tf : Nat} {lf : Nat} : ∀ {s : Idx c} {done rs : List Nat} {s' : Idx c},
    threadLoop rf tf (-1) lf s done = .ok (rs, s') → done.length ≤ rs.length ∧ ∀ T : Nat, done.length ≤ T → T ≤ rs.length →
    ∃ rs1 s1, threadLoop rf tf T lf s done = .ok (rs1, s1) ∧ rs1.length = T ∧
      (T = rs.length → rs1 = rs ∧ s1 = s') ∧ (T < rs.length → s1.nNodes < c.L.wrap (2 * s1.nItems)) := by
  induction lf with
  | zero => intro s done rs s' h; cases h
  | succ lf ih =>
    intro s done rs s' h
    unfold threadLoop at h
    have hstop : ∀ T : Nat, T = done.length → threadLoop rf tf T (lf + 1) s done = .ok (done, s) := by
      intro T hT
      unfold threadLoop
      rw [if_pos (show (if (T : Int) = -1 then s.nNodes ≥ c.L.wrap (2 * s.nItems) else (done.length : Int) ≥ T) by
        rw [if_neg (by omega : ¬ ((T : Int) = -1))]; omega)]
    by_cases h1 : s.nNodes ≥ c.L.wrap (2 * s.nItems)
    · rw [if_pos (show (if (-1 : Int) = -1 then s.nNodes ≥ c.L.wrap (2 * s.nItems) else (done.length : Int) ≥ -1) by
        rw [if_pos rfl]; exact h1)] at h
      cases h
      refine ⟨le_rfl, fun T h2 h3 => ?_⟩
      exact ⟨done, s, hstop T (by omega), by omega, fun _ => ⟨rfl, rfl⟩, fun h => absurd h (by omega)⟩
    · rw [if_neg (show ¬ (if (-1 : Int) = -1 then s.nNodes ≥ c.L.wrap (2 * s.nItems) else (done.length : Int) ≥ -1) by
        rw [if_pos rfl]; exact h1)] at h
      simp only [bind, Except.bind] at h
      split at h
      · cases h
      · next ids hids =>
        split at h
        · cases h
        · next v hv =>
          obtain ⟨root, s1⟩ := v
          dsimp only at h
          obtain ⟨g1, g2⟩ := ih h
          have e : (done ++ [root]).length = done.length + 1 := by simp
          refine ⟨by omega, fun T h2 h3 => ?_⟩
          by_cases hT : T = done.length
          · exact ⟨done, s, hstop T hT, hT.symm, fun h => absurd h (by omega), fun _ => by omega⟩
          · obtain ⟨rs1, s2, k1, k2, k3, k4⟩ := g2 T (by omega) h3
            refine ⟨rs1, s2, ?_, k2, k3, k4⟩
            unfold threadLoop
            rw [if_neg (show ¬ (if (T : Int) = -1 then s.nNodes ≥ c.L.wrap (2 * s.nItems) else (done.length : Int) ≥ T) by
              rw [if_neg (by omega : ¬ ((T : Int) = -1))]; omega)]
            simp only [bind, Except.bind, hids, hv]
            exact k1

theorem copyRoots_counts (rs : List Nat) : ∀ {s s' : Idx c} {dst : Nat}, copyRoots s rs dst = .ok s' →
    s'.nNodes = s.nNodes ∧ s'.nItems = s.nItems ∧ s'.roots = s.roots := by
  induction rs with
  | nil => intro s s' dst h; cases h; exact ⟨rfl, rfl, rfl⟩
  | cons r rs ih =>
    intro s s' dst h
    unfold copyRoots at h
    simp only [bind, Except.bind] at h
    split at h
    · cases h
    · split at h
      · cases h
      · obtain ⟨h1, h2, h3⟩ := ih h
        exact ⟨h1, h2, h3⟩

theorem takeNode_counts (s : Idx c) : s.takeNode.2.nItems = s.nItems ∧ s.takeNode.2.roots = s.roots := by
  unfold takeNode allocateSize
  dsimp only
  split <;> exact ⟨rfl, rfl⟩

theorem placeSplit_counts {s s' : Idx c} {m : Bytes} {i : Nat} (h : placeSplit s m = .ok (i, s')) :
    s'.nItems = s.nItems ∧ s'.roots = s.roots := by
  unfold placeSplit at h
  simp only [bind, Except.bind] at h
  split at h
  · cases h
  · cases h
    exact takeNode_counts s

theorem chooseSplit_counts {rf : Nat} {s s' : Idx c} {ids l rt : List Nat} {m : Bytes}
    (h : chooseSplit rf s ids = .ok (m, l, rt, s')) : s'.nItems = s.nItems ∧ s'.roots = s.roots := by
  unfold chooseSplit at h
  simp only [bind, Except.bind] at h
  split at h
  · cases h
  · split at h
    · cases h
    · split at h
      · cases h
      · cases h
        exact ⟨rfl, rfl⟩

theorem makeTree_counts {rf tf : Nat} : ∀ {s s' : Idx c} {ids : List Nat} {isRoot : Bool} {i : Nat},
    makeTree rf tf s ids isRoot = .ok (i, s') → s'.nItems = s.nItems ∧ s'.roots = s.roots := by
  induction tf with
  | zero => intro s s' ids isRoot i h; cases h
  | succ tf ih =>
    intro s s' ids isRoot i h
    unfold makeTree at h
    split at h
    · cases h; exact ⟨rfl, rfl⟩
    · split at h
      · unfold makeBucket at h
        simp only [bind, Except.bind] at h
        split at h
        · cases h
        · cases h
          exact takeNode_counts s
      · simp only [bind, Except.bind] at h
        split at h
        · cases h
        · next v hv =>
          obtain ⟨m, l, rt, s1⟩ := v
          dsimp only at h
          obtain ⟨a1, a2⟩ := chooseSplit_counts hv
          split at h
          · split at h
            · cases h
            · next v1 hv1 =>
              split at h
              · cases h
              · next v2 hv2 =>
                obtain ⟨b1, b2⟩ := ih hv1
                obtain ⟨c1, c2⟩ := ih hv2
                obtain ⟨d1, d2⟩ := placeSplit_counts h
                exact ⟨by rw [d1, c1, b1, a1], by rw [d2, c2, b2, a2]⟩
          · split at h
            · cases h
            · next v1 hv1 =>
              split at h
              · cases h
              · next v2 hv2 =>
                obtain ⟨b1, b2⟩ := ih hv1
                obtain ⟨c1, c2⟩ := ih hv2
                obtain ⟨d1, d2⟩ := placeSplit_counts h
                exact ⟨by rw [d1, c1, b1, a1], by rw [d2, c2, b2, a2]⟩

theorem threadLoop_counts {rf tf : Nat} {trees : Int} {lf : Nat} : ∀ {s s' : Idx c} {done rs : List Nat},
    threadLoop rf tf trees lf s done = .ok (rs, s') → s'.nItems = s.nItems ∧ s'.roots = s.roots := by
  induction lf with
  | zero => intro s s' done rs h; cases h
  | succ lf ih =>
    intro s s' done rs h
    unfold threadLoop at h
    by_cases h1 : (if trees = -1 then s.nNodes ≥ c.L.wrap (2 * s.nItems) else (done.length : Int) ≥ trees)
    · rw [if_pos h1] at h
      cases h
      exact ⟨rfl, rfl⟩
    · rw [if_neg h1] at h
      simp only [bind, Except.bind] at h
      split at h
      · cases h
      · split at h
        · cases h
        · next v hv =>
          obtain ⟨b1, b2⟩ := makeTree_counts hv
          obtain ⟨c1, c2⟩ := ih h
          exact ⟨c1.trans b1, c2.trans b2⟩

theorem buildFinish_counts {s s' : Idx c} (h : buildFinish s = .ok s') :
    s'.nNodes = c.L.wrap (s.nNodes + s.roots.length) ∧ s'.nItems = s.nItems ∧ s'.roots = s.roots := by
  unfold buildFinish at h
  simp only [bind, Except.bind] at h
  have ea : ∀ k, (s.allocateSize k).nNodes = s.nNodes ∧ (s.allocateSize k).nItems = s.nItems ∧
      (s.allocateSize k).roots = s.roots := by
    intro k
    unfold allocateSize
    split <;> exact ⟨rfl, rfl, rfl⟩
  split at h
  · cases h
  · next s1 h1 =>
    obtain ⟨e1, e2, e3⟩ := copyRoots_counts _ h1
    obtain ⟨f1, f2, f3⟩ := ea (c.L.wrap (s.nNodes + s.roots.length))
    split at h
    · cases h
    · cases h
      refine ⟨?_, e2.trans f2, e3.trans f3⟩
      show c.L.wrap (s1.nNodes + s1.roots.length) = _
      rw [e1, e3, f1, f3]

/-- More fuel never changes the result of `Build`. -/
theorem build_mono {rf tf lf : Nat} {trees : Int} {s s' : Idx c} (h : build rf tf lf trees s = .ok s')
    {rf' tf' lf' : Nat} (hr : rf ≤ rf') (ht : tf ≤ tf') (hl : lf ≤ lf') : build rf' tf' lf' trees s = .ok s' := by
  unfold build threadBuild at h ⊢
  simp only [bind, Except.bind] at h ⊢
  split at h
  · cases h
  · split at h
    · cases h
    · next v hv =>
      split at hv
      · cases hv
      · next u hu =>
        rw [threadLoop_mono hu hr ht hl]
        cases hv
        exact h

/-- `Build` with one worker has one result. -/
theorem build_det {rf tf lf rf' tf' lf' : Nat} {trees : Int} {s s' s'' : Idx c} (h : build rf tf lf trees s = .ok s')
    (h' : build rf' tf' lf' trees s = .ok s'') : s' = s'' := by
  have h1 := build_mono h (le_max_left rf rf') (le_max_left tf tf') (le_max_left lf lf')
  have h2 := build_mono h' (le_max_right rf rf') (le_max_right tf tf') (le_max_right lf lf')
  rw [h1] at h2
  injection h2

/-- `Build(-1)` is `Build(T)` for the smallest `T` that gives twice as many nodes as item slots. -/
theorem build_full {rf tf lf : Nat} {s s' : Idx c} (hr : s.roots = []) (h : build rf tf lf (-1) s = .ok s') :
    build rf tf lf s'.roots.length s = .ok s' ∧
    ∀ T : Nat, T < s'.roots.length → ∀ rf1 tf1 lf1 s1, build rf1 tf1 lf1 T s = .ok s1 →
      s1.roots.length = T ∧ s1.nItems = s'.nItems ∧
      ∃ N, N < c.L.wrap (2 * s1.nItems) ∧ s1.nNodes = c.L.wrap (N + T) := by
  unfold build threadBuild at h
  simp only [bind, Except.bind] at h
  split at h
  · cases h
  · next s0 hs0 =>
    have hr0 : s0.roots = [] := by
      unfold buildStart at hs0
      split at hs0
      · cases hs0
      · split at hs0
        · cases hs0
        · cases hs0; exact hr
    split at h
    · cases h
    · next v hv =>
      split at hv
      · cases hv
      · next u hu =>
        obtain ⟨rs, s2⟩ := u
        cases hv
        dsimp only at h
        obtain ⟨_, e2, e3⟩ := buildFinish_counts h
        have hlen : s'.roots.length = rs.length := by
          rw [e3]
          show (s2.roots ++ rs).length = _
          rw [(threadLoop_counts hu).2, hr0]
          rfl
        obtain ⟨_, g⟩ := threadLoop_full hu
        constructor
        · obtain ⟨rs1, s3, g1, g2, g3, _⟩ := g rs.length (by simp) le_rfl
          obtain ⟨rfl, rfl⟩ := g3 rfl
          unfold build threadBuild
          rw [hlen]
          simp only [bind, Except.bind, hs0, g1]
          exact h
        · intro T hTl rf1 tf1 lf1 s1 h1
          obtain ⟨rs1, s3, g1, g2, _, g4⟩ := g T (by simp) (by omega)
          have h1' := build_mono h1 (le_max_right rf rf1) (le_max_right tf tf1) (le_max_right lf lf1)
          have g1' := threadLoop_mono g1 (le_max_left rf rf1) (le_max_left tf tf1) (le_max_left lf lf1)
          unfold build threadBuild at h1'
          simp only [bind, Except.bind, hs0, g1'] at h1'
          obtain ⟨f1, f2, f3⟩ := buildFinish_counts h1'
          have f1' : s1.nNodes = c.L.wrap (s3.nNodes + (s3.roots ++ rs1).length) := f1
          have f2' : s1.nItems = s3.nItems := f2
          have f3' : s1.roots = s3.roots ++ rs1 := f3
          have e2' : s'.nItems = s2.nItems := e2
          rw [(threadLoop_counts g1).2, hr0, List.nil_append] at f1' f3'
          refine ⟨by rw [f3', g2], by rw [f2', e2', (threadLoop_counts g1).1, (threadLoop_counts hu).1], s3.nNodes, ?_, by rw [f1', g2]⟩
          rw [f2']
          exact g4 (by omega)

/-- `Build` with one worker finishes. -/
theorem build_ok (hc : c.WF) (ht : Conc.Total c) (hb : EventuallyBalanced c) {s : Idx c}
    {m : Nat → Option (List c.N.V)} {n : Nat} (hs : s.ItemInv m n) (hbt : s.built = false) (hr : s.roots = [])
    (trees : Int) (hfit : c.L.Fits (buildBound n trees)) :
    ∃ rf s', ∀ rf' tf lf, rf ≤ rf' → n + 1 ≤ tf → (if trees = -1 then n else trees.toNat) + 1 ≤ lf →
      build rf' tf lf trees s = .ok s' := by
  obtain ⟨s1, hstart, hinv1, hsl1, hn1, hb1, hr1, _, hitems1, hgaps1, hpre⟩ := buildStart_spec hc hs hbt
  have hlive := liveOf_length_le m n
  have hcap1 : 1 ≤ cap (liveOf m n).length := le_max_left _ _
  set B := if trees = -1 then 2 * n + cap (liveOf m n).length
    else n + trees.toNat * cap (liveOf m n).length with hB
  have hBle : B ≤ buildBound n trees := by
    rw [hB]; unfold buildBound
    split
    · unfold cap; omega
    · have : trees.toNat * cap (liveOf m n).length ≤ trees.toNat * (2 * n + 2) :=
        Nat.mul_le_mul_left _ (by unfold cap; omega)
      omega
  obtain ⟨rf, ⟨rs, s2⟩, h1⟩ := threadLoop_ok hc ht hb n trees m B (hfit.mono hBle)
    (fun ht => by rw [hB, if_neg ht]) (fun ht => by rw [hB, if_pos ht])
    ((if trees = -1 then n else trees.toNat) + 1) s1 [] hinv1 hsl1 (by simp; omega)
    (fun h => by rw [if_pos h]; omega) (fun h => by rw [if_neg h]; simp) (by omega)
  -- the rest cannot fail
  have hfin : ∃ s', build rf ((liveOf m n).length + 1) ((if trees = -1 then n else trees.toNat) + 1) trees s = .ok s' := by
    have hnB : n ≤ B := by rw [hB]; split <;> omega
    obtain ⟨T1, T2, T3, T4, T5, new, T6, T7, T8, T9, T11, T10⟩ := threadLoop_spec hc rf _ n trees m B (hfit.mono hBle)
      (fun ht => by rw [hB, if_neg ht]) (fun ht => by rw [hB, if_pos ht]) _ s1 [] rs s2 hinv1 hsl1
      (by simp; omega) (by omega) (by simp; omega) h1
    simp only [List.nil_append] at T6
    subst T6
    have hroots2 : s2.roots = [] := by rw [T1.roots, hr1]; exact hr
    have hpre1 : ∀ x, x < n * c.L.nodeSize → s2.alloc.data x = s1.alloc.data x := by
      intro x hx
      rw [T1.frame x (by rw [hn1]; exact hx)]
    have G : Grown ({ s2 with roots := rs } : Idx c) m n := by
      refine ⟨⟨⟨T1.inv.memOK.fits, T1.inv.memOK.size, T1.inv.memOK.nodes⟩, T1.inv.loaded,
        T1.inv.nItems, T1.inv.n_le, T1.inv.le_size, T1.inv.zero⟩, hs.bound, hs.top, ?_, ?_, ?_, ?_, ?_, ?_, ?_, ?_, hpre.congr hpre1⟩
      · intro i v hi
        exact (hitems1 i v hi).congr hc.layout fun j hj => hpre1 _ (node_lt (hs.bound i v hi) hj)
      · intro i hi hmi j hj hj'
        show s2.alloc.data _ = 0
        rw [hpre1 _ (node_lt hi hj)]
        exact hgaps1 i hi hmi j hj hj'
      · intro r hr
        have := T7 r hr
        refine ⟨by omega, this.2.1⟩
      · intro hne
        exact List.mem_of_getLast? (T8 hne)
      · intro hne
        exact (T9 hne).trans hn1
      · exact fun r hr => (T7 r hr).2.2
      · rw [hn1] at T11; exact T11
      · rw [hn1] at T10; exact T10
    have hfin : s2.nNodes + rs.length ≤ buildBound n trees := by
      by_cases ht : trees = -1
      · have h4 := (T4 ht).2
        simp at h4
        rw [hB, if_pos ht] at T2
        unfold buildBound
        rw [if_pos ht]
        unfold cap at T2
        omega
      · have h5 := T5 ht
        simp at h5
        rw [hB, if_neg ht] at T2
        unfold buildBound
        rw [if_neg ht, h5]
        have : trees.toNat * cap (liveOf m n).length ≤ trees.toNat * (2 * n + 1) :=
          Nat.mul_le_mul_left _ (by unfold cap; omega)
        have e : trees.toNat * (2 * n + 2) = trees.toNat * (2 * n + 1) + trees.toNat := by ring
        omega
    obtain ⟨s6, F1, _⟩ := buildFinish_spec hc G (hfit.mono hfin)
    refine ⟨s6, ?_⟩
    unfold build threadBuild
    simp only [bind, Except.bind, hstart, h1, hroots2, List.nil_append]
    exact F1
  obtain ⟨s', hs'⟩ := hfin
  exact ⟨rf, s', fun rf' tf lf q1 q2 q3 => build_mono hs' q1 (by omega) q3⟩

end Idx
end Annoy
