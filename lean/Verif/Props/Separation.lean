import Verif.Proof.Sides
import Verif.Props.SearchOrder
/-!
# C68: the items below a stored split are where the split puts them
-/
namespace Annoy

/-- `Side` goes by the sign of the margin: right if it is positive, left if it is negative or NaN, any side if it is
zero. -/
def SignSides (c : Cfg) : Prop := ∀ m v r sd r', c.D.side m v r = .ok (sd, r') → ∃ x, c.D.margin m 0 v = .ok x ∧
  (sd = .left → c.N.lt c.N.zero x = false) ∧ (sd = .right → c.N.lt c.N.zero x = true ∨ c.N.eq x c.N.zero = true)

theorem Num.Lawful.not_pos {N : Num} (hN : N.Lawful) {x : N.V} (h : N.eq x N.zero = true) : N.lt N.zero x = false := by
  cases h1 : N.lt N.zero x with
  | false => rfl
  | true => rw [← hN.lt_irrefl N.zero, hN.lt_of_lt_of_eq _ _ _ h1 h]

theorem sideOf_sign {N : Num} {R : Rng} (x : N.V) (r : R.σ) {sd : Side} {r' : R.σ}
    (hx : N.eq x N.zero = true → N.lt N.zero x = false)
    (h : Angular.sideOf x r = (sd, r')) :
    (sd = .left → N.lt N.zero x = false) ∧ (sd = .right → N.lt N.zero x = true ∨ N.eq x N.zero = true) := by
  unfold Angular.sideOf at h
  split at h
  · cases h1 : N.lt N.zero x <;> rw [h1] at h <;> obtain ⟨rfl, rfl⟩ := Prod.mk.inj h
    · exact ⟨fun _ => rfl, fun h => nomatch h⟩
    · exact ⟨fun h => (nomatch h), fun _ => Or.inl rfl⟩
  · next h1 =>
    have h1 : N.eq x N.zero = true := by simpa using h1
    exact ⟨fun _ => hx h1, fun _ => Or.inr h1⟩

theorem angular_signSides {N : Num} {C : Codec N.V} {R : Rng} {sI : List Nat → List Nat}
    {sP : List (N.V × Nat) → List (N.V × Nat)} {k f : Nat} (hN : N.Lawful) :
    SignSides (angularCfg N C R sI sP k f) := by
  intro m v r sd r' h
  have h : (do let dot ← Angular.margin (L := (angularCfg N C R sI sP k f).L) C m 0 v; .ok (Angular.sideOf dot r)) =
    Except.ok (sd, r') := h
  cases hm : Angular.margin (L := (angularCfg N C R sI sP k f).L) C m 0 v with
  | error e => rw [hm] at h; cases h
  | ok x =>
    rw [hm] at h
    exact ⟨x, hm, sideOf_sign x r (fun h => hN.not_pos h) (Except.ok.inj h)⟩

theorem dot_signSides {N : Num} {C : Codec N.V} {R : Rng} {sI : List Nat → List Nat}
    {sP : List (N.V × Nat) → List (N.V × Nat)} {k f : Nat} (hN : N.Lawful) :
    SignSides (dotCfg N C R sI sP k f) := by
  intro m v r sd r' h
  have h : (do let dot ← DotProduct.margin (L := (dotCfg N C R sI sP k f).L) C m 0 v; .ok (Angular.sideOf dot r)) =
    Except.ok (sd, r') := h
  cases hm : DotProduct.margin (L := (dotCfg N C R sI sP k f).L) C m 0 v with
  | error e => rw [hm] at h; cases h
  | ok x =>
    rw [hm] at h
    exact ⟨x, hm, sideOf_sign x r (fun h => hN.not_pos h) (Except.ok.inj h)⟩

theorem Sided.splits {c : Cfg} {b : Bytes} {n : Nat} {t : Tree} (h : Sided c b n t) :
    ∀ p ∈ t.splits, (∃ m, DivisionBy c b n m p.2.1.items p.2.2.items ∧ KeptFrom c b p.1 m) ∨
      ((∃ j k, p.2.1 = .item j ∧ p.2.2 = .hole k) ∧ BlankFrom c.L b p.1 (3 * c.L.szIX)) := by
  induction t with
  | item i => simp [Tree.splits]
  | hole i => simp [Tree.splits]
  | bucket i ids => simp [Tree.splits]
  | split i l r ihl ihr =>
    intro p hp
    simp only [Tree.splits, List.mem_cons, List.mem_append] at hp
    rcases h with ⟨h1, h2, h3⟩ | ⟨⟨j, k, rfl, rfl⟩, h2⟩
    · rcases hp with rfl | hp | hp
      · exact Or.inl h1
      · exact ihl h2 p hp
      · exact ihr h3 p hp
    · rcases hp with rfl | hp | hp
      · exact Or.inr ⟨⟨j, k, rfl, rfl⟩, h2⟩
      · simp [Tree.splits] at hp
      · simp [Tree.splits] at hp

theorem Tree.splits_items (t : Tree) : ∀ p ∈ t.splits, ∀ x, x ∈ p.2.1.items ∨ x ∈ p.2.2.items → x ∈ t.items := by
  induction t with
  | item i => simp [Tree.splits]
  | hole i => simp [Tree.splits]
  | bucket i ids => simp [Tree.splits]
  | split i l r ihl ihr =>
    intro p hp x hx
    simp only [Tree.splits, List.mem_cons, List.mem_append] at hp
    simp only [Tree.items, List.mem_append]
    rcases hp with rfl | hp | hp
    · exact hx
    · exact Or.inl (ihl p hp x hx)
    · exact Or.inr (ihr p hp x hx)

namespace Session
variable {c : Cfg} {numCPU : Nat} {pol : BuildPolicy} {adds : List (Nat × List c.N.V)} {trees workers : Int} {s s' : Idx c}

/-- **C68**, about the hyperplanes that were computed instead of what is stored of them: every inner node of every tree
keeps the first `vectorLength` bytes of a hyperplane which `CreateSplit` made for exactly the items below this node.  The
vectors of the items below the left child have no positive margin to it, those of the items below the right child
no negative one - or the hyperplane was set to zero, and the items were divided at random.  (The one exception is the root over
a lonely item.) -/
theorem C68_divisions_partial (h : Session c numCPU pol adds trees workers s s')
    (hk : SplitsKept c numCPU pol (slotCount adds) trees workers) (hS : SignSides c) :
    ∃ ts : List Tree, ts.map Tree.root = s'.roots ∧
      (∀ t ∈ ts, RootTree c.L s'.alloc.data s'.nItems (addedIds adds) t) ∧
      ∀ t ∈ ts, ∀ i l r, (i, l, r) ∈ t.splits →
        (∃ m ids, ids.Perm (l.items ++ r.items) ∧ KeptFrom c s'.alloc.data i m ∧
          ((CutFor c s'.alloc.data s'.nItems ids m ∧
              (∀ x ∈ l.items, ∃ v y, lastAdded adds x = some v ∧ c.D.margin m 0 v = .ok y ∧ c.N.lt c.N.zero y = false) ∧
              (∀ x ∈ r.items, ∃ v y, lastAdded adds x = some v ∧ c.D.margin m 0 v = .ok y ∧
                (c.N.lt c.N.zero y = true ∨ c.N.eq y c.N.zero = true))) ∨
            Node.vec c.L c.C m 0 = List.replicate c.L.f c.N.zero)) ∨
        (∃ j k, l = .item j ∧ r = .hole k ∧ BlankFrom c.L s'.alloc.data i (3 * c.L.szIX)) := by
  obtain ⟨N0, B, hN, _⟩ := h.built
  obtain ⟨ts, h1, h2, -⟩ := B.sided (by
    rcases hk with hk | hk
    · exact Or.inr hk
    · exact Or.inl (hk.mono (by have := B.nNodes; omega)))
  refine ⟨ts, h1, fun t ht => B.nItems ▸ (h2 t ht).1, ?_⟩
  intro t ht i l r hp
  -- the items of inner nodes are added items
  have hadd : ∀ x, x ∈ l.items ∨ x ∈ r.items → ∃ v, lastAdded adds x = some v ∧
      Node.vec c.L c.C s'.alloc.data (x * c.L.nodeSize) = v := by
    intro x hx
    have hx : x ∈ addedIds adds := by
      have ht' := (h2 t ht).1
      have hx := t.splits_items _ hp x hx
      cases t with
      | item i => exact ht'.elim
      | hole i => exact ht'.elim
      | bucket i ids => simp [Tree.splits] at hp
      | split i l r =>
        obtain ⟨-, -, -, -, -, -, -, h⟩ := ht'
        rcases h with ⟨-, -, h, -, -⟩ | ⟨j, h, -, rfl, rfl, -⟩
        · exact h.mem_iff.1 hx
        · rw [show addedIds adds = [j] from h]
          simpa [Tree.items] using hx
    obtain ⟨v, hv⟩ := Option.isSome_iff_exists.1 (mem_addedIds.1 hx)
    exact ⟨v, hv, (B.items x v hv).vec⟩
  rw [B.nItems]
  rcases (h2 t ht).2.splits _ hp with ⟨m, e0, e4⟩ | ⟨⟨j, k, e1, e2⟩, e3⟩
  · obtain ⟨-, m0, ids, e1, e2, e3⟩ := e0.simple
    refine Or.inl ⟨m, ids, e1, e4, ?_⟩
    rcases e3 with ⟨rfl, e5, e6⟩ | rfl
    · refine Or.inl ⟨e2, fun x hx => ?_, fun x hx => ?_⟩
      · obtain ⟨v, hv, hvec⟩ := hadd x (Or.inl hx)
        obtain ⟨q, q', hq⟩ := e5 x hx
        rw [hvec] at hq
        obtain ⟨y, hy, hl, -⟩ := hS _ _ _ _ _ hq
        exact ⟨v, y, hv, hy, hl rfl⟩
      · obtain ⟨v, hv, hvec⟩ := hadd x (Or.inr hx)
        obtain ⟨q, q', hq⟩ := e6 x hx
        rw [hvec] at hq
        obtain ⟨y, hy, -, hr⟩ := hS _ _ _ _ _ hq
        exact ⟨v, y, hv, hy, hr rfl⟩
    · exact Or.inr (Node.vec_setVec _ _ _ _ (by simp))
  · exact Or.inr ⟨j, k, e1, e2, e3⟩

end Session

/-! ## What is stored of a hyperplane does not separate -/

/-- A generator: the first three indexes are 0, later ones the last of the range; sides alternate. -/
def fewRng : Rng where
  σ := Nat
  next b := (b, b + 1)
  nextSide b := (if b % 2 = 0 then .left else .right, b + 1)
  nextIndex b n := if n = 0 then .error (.panic "integer divide by zero") else .ok (if b < 3 then 0 else n - 1, b + 1)
  setSeed b _ := b
  getSeed _ := 0
  cloneAndReset _ := 0

/-- An angular index of float32 with this generator. -/
def few32 (f : Nat) : Cfg := angularCfg ieee32 (bvCodec 4) fewRng sortNat (sortPairs ieee32) 4 f

/-- `few32` with functions for the arithmetic. -/
def few32With (add mul div : BitVec 32 → BitVec 32 → BitVec 32) (f : Nat) : Cfg :=
  angularCfg (ieee32With add mul div) (bvCodec 4) fewRng sortNat (sortPairs (ieee32With add mul div)) 4 f

theorem few32_wf {f : Nat} (hf : 3 * 4 + 4 + f * 4 < 2 ^ 32) : (few32 f).WF :=
  angular_wf (externals_concrete ieee32_lawful) (Or.inl rfl) (Or.inl rfl) hf

/-- Vectors (1, 4, 0, …), (-1, -4, 0, …), (1/4, -4, 0, …), (0, …) of length 16 for items 0, 1, 2, 18. -/
def tallAdds : List (Nat × List ieee32.V) :=
  [(0, x32 0x3f800000 :: x32 0x40800000 :: List.replicate 14 (x32 0)),
   (1, x32 0xbf800000 :: x32 0xc0800000 :: List.replicate 14 (x32 0)),
   (2, x32 0x3e800000 :: x32 0xc0800000 :: List.replicate 14 (x32 0)),
   (18, List.replicate 16 (x32 0))]

/-- What is checked of the built index. -/
def tallCheck {c : Cfg} (s' : Idx c) : Bool :=
  decide (s'.roots = [20] ∧ childAt c.L s'.alloc.data 20 0 = 19 ∧ ndAt c.L s'.alloc.data 19 = 3 ∧
    childrenAt c.L s'.alloc.data 19 = [1, 2, 18] ∧
    (match c.D.margin s'.alloc.data (20 * c.L.nodeSize) (Node.vec c.L c.C s'.alloc.data (2 * c.L.nodeSize)) with
      | .ok m => c.N.lt c.N.zero m
      | .error _ => true) = true)

/-- The computation, with functions for the arithmetic. -/
def tallWith (add mul div : BitVec 32 → BitVec 32 → BitVec 32) : Bool :=
  okAnd (tallCheck (c := few32With add mul div 16)) (made (few32With add mul div 16) Nat.zero tallAdds 1)

theorem tall_checked : tallWith add32S mul32S div32S = true := by decide +kernel

/-- **C68 as stated is false.**  Four items are divided by a good hyperplane: item 0 = (1, 4, …) to the right, items
1 = (-1, -4, …), 2 = (1/4, -4, …) and 18 = (0, …) to the left.  Of the hyperplane only the first component is stored.
Item 2 lies below the left child of the root, but on the right side of what the root stores. -/
theorem C68_refuted : ∃ s s', Session (few32 16) 1 .single tallAdds 1 1 s s' ∧
    SplitsKept (few32 16) 1 .single (slotCount tallAdds) 1 1 ∧
    ∀ ts : List Tree, ts.map Tree.root = s'.roots →
      (∀ t ∈ ts, RootTree (few32 16).L s'.alloc.data s'.nItems (addedIds tallAdds) t) →
      ¬ ∀ t ∈ ts, Separated (few32 16) s'.alloc.data t := by
  have key : tallWith ieee32.add ieee32.mul ieee32.div = true := fast32 tallWith tall_checked
  unfold tallWith at key
  obtain ⟨s, s', h, hp⟩ := made_okAnd (c := few32 16) (r := Nat.zero) (adds := tallAdds) (trees := 1)
    (tallCheck (c := few32 16))
    (few32_wf (by decide)) (legalAdds_of (by decide +kernel)) (by decide +kernel) key
  obtain ⟨h1, h2, h3, h4, h5⟩ := of_decide_eq_true hp
  refine ⟨s, s', h, splitsKept_of_length h.wf (by decide) h.fits, fun ts hts hroot hsep => ?_⟩
  rw [h1] at hts
  have hn : s'.nItems = 19 := by
    obtain ⟨N0, B, _⟩ := h.built
    rw [B.nItems]; decide +kernel
  match ts, hts with
  | [t], hts =>
    have ht := hroot t (by simp)
    have hs := hsep t (by simp)
    have hr : t.root = 20 := by simpa using hts
    cases t with
    | item i => exact ht.elim
    | hole i => exact ht.elim
    | bucket i ids =>
      obtain ⟨-, h, -⟩ := ht
      rw [hn] at h
      exact absurd h (by decide)
    | split i l r =>
      obtain rfl : i = 20 := hr
      obtain ⟨-, -, -, -, -, e1, -, e2⟩ := ht
      rw [h2] at e1
      have hl : l = .bucket 19 [1, 2, 18] := by
        rcases e2 with ⟨-, -, -, e3, -⟩ | ⟨j, e3, -⟩
        · cases l with
          | item j =>
            obtain rfl : 19 = j := e1
            have := e3.1
            rw [hn] at this
            omega
          | hole j => exact e3.elim
          | bucket j ids =>
            obtain rfl : 19 = j := e1
            obtain ⟨-, -, -, -, e4, -⟩ := e3
            rw [h4] at e4
            rw [e4]
          | split j l r =>
            obtain rfl : 19 = j := e1
            obtain ⟨-, -, -, e4, -⟩ := e3
            rw [h3] at e4
            exact absurd e4 (by decide)
        · have e3 := congrArg List.length e3
          exact absurd e3 (by rw [show (addedIds tallAdds).length = 4 by decide +kernel]; simp)
      subst hl
      obtain ⟨m, hm, hlt⟩ := hs.1 2 (by simp [Tree.items])
      rw [hm] at h5
      exact Bool.noConfusion (h5.symm.trans hlt)
  | _ :: _ :: _, hts => simp at hts

/-- C68: an index for which the hypotheses of `C68_divisions_partial` hold, and in which there is an inner node. -/
example : ∃ s s', Session (few32 16) 1 .single tallAdds 1 1 s s' ∧
    SplitsKept (few32 16) 1 .single (slotCount tallAdds) 1 1 ∧ SignSides (few32 16) ∧ (few32 16).L.K < slotCount tallAdds := by
  obtain ⟨s, s', h, hk, _⟩ := C68_refuted
  exact ⟨s, s', h, hk, angular_signSides ieee32_lawful, by decide +kernel⟩

end Annoy
