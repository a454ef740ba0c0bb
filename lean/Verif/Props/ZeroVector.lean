import Verif.Props.DotIndex
/-!
# C128: zero vectors

A zero vector has no direction.  The distance code answers 2 for it, whatever the other vector (distance/angular/distance.go:92-104, the same in
distance/dotproduct/distance.go:164-176), so a search by a zero vector sees all items at one distance and answers with the smallest indexes.
-/
namespace Annoy
open Ieee

/-- Every component is a zero, of any sign. -/
def ZeroVector (N : Num) (q : List N.V) : Prop := ∀ x ∈ q, N.eq x N.zero = true

/-- Laws of zeros of any sign. -/
structure Num.Vanish (N : Num) : Prop where
  mul : ∀ x, N.eq x N.zero = true → N.eq (N.mul x x) N.zero = true
  add : ∀ x y, N.eq x N.zero = true → N.eq y N.zero = true → N.eq (N.add x y) N.zero = true
  zero : N.eq N.zero N.zero = true
  two : N.Ordinary N.two

section
variable {N : Num}

theorem Num.Vanish.dotFrom (V : N.Vanish) {q : List N.V} (h : ZeroVector N q) (z : N.V) (hz : N.eq z N.zero = true) :
    N.eq (Vec.dotFrom N z q q) N.zero = true := by
  induction q generalizing z with
  | nil => exact hz
  | cons x q ih =>
    exact ih (fun y hy => h y (by simp [hy])) _ (V.add _ _ hz (V.mul x (h x (by simp))))

/-- A zero vector is at distance 2 of every vector, infinite or NaN components included. -/
theorem angularFormula_zero (V : N.Vanish) (hN : N.MulLaws) {q v : List N.V} (h : ZeroVector N q ∨ ZeroVector N v) : angularFormula N q v = N.two := by
  unfold angularFormula
  rw [if_neg]
  rw [Bool.not_eq_true]
  rcases h with h | h
  · exact hN.zero_mul _ _ (V.dotFrom h _ V.zero)
  · rw [hN.mul_comm]
    exact hN.zero_mul _ _ (V.dotFrom h _ V.zero)

/-- Right answers when all items are at the same distance. -/
theorem TopK.level (hN : N.Lawful) {norm : N.V → N.V} {δ : Nat → N.V} {S : List Nat} {k : Nat} {ids : List Nat} {ds : List N.V} {d : N.V}
    (h : TopK N norm δ S k ids ds) (hd : ∀ i ∈ S, δ i = d) (ho : N.Ordinary d) :
    ids.Pairwise (· < ·) ∧ ds = List.replicate ids.length (norm d) ∧ ∀ i ∈ ids, ∀ j ∈ S, j ∉ ids → i < j := by
  have ho' : ∀ i ∈ S, N.Ordinary (δ i) := fun i hi => by rw [hd i hi]; exact ho
  have key : ∀ i ∈ S, ∀ j ∈ S, PairLt N (δ i, i) (δ j, j) → i < j := by
    intro i hi j hj hij
    rcases hij with hl | hl
    · rw [hd i hi, hd j hj] at hl
      have hl : N.lt d d = true := hl
      rw [hN.lt_irrefl] at hl
      cases hl
    · exact hl.2
  refine ⟨?_, ?_, fun i hi j hj hn => key i (h.sub i hi) j hj (h.least ho' i hi j hj hn)⟩
  · have := List.pairwise_map.1 (h.sorted ho')
    exact this.imp_of_mem fun hi hj => key _ (h.sub _ hi) _ (h.sub _ hj)
  · rw [h.dists]
    exact List.eq_replicate_iff.2 ⟨by simp, fun x hx => by
      obtain ⟨i, hi, rfl⟩ := List.mem_map.1 hx
      rw [hd i (h.sub i hi)]⟩

/-- Of a list in ascending order the beginning. -/
theorem TopK.level_take (hN : N.Lawful) {norm : N.V → N.V} {δ : Nat → N.V} {S : List Nat} {k : Nat} {ids : List Nat} {ds : List N.V} {d : N.V}
    (h : TopK N norm δ S k ids ds) (hS : S.Pairwise (· < ·)) (hd : ∀ i ∈ S, δ i = d) (ho : N.Ordinary d) : ids = S.take k := by
  have ho' : ∀ i ∈ S, N.Ordinary (δ i) := fun i hi => by rw [hd i hi]; exact ho
  have key : ∀ i ∈ S, ∀ j ∈ S, i < j → PairLt N (δ i, i) (δ j, j) := by
    intro i hi j hj hij
    refine Or.inr ⟨?_, hij⟩
    show N.eq (δ i) (δ j) = true
    rw [hd i hi, hd j hj]
    exact ho
  refine (h.unique hN (ids' := S.take k) (ds' := (S.take k).map fun i => norm (δ i)) ⟨by simp, ?_, fun i hi => List.mem_of_mem_take hi, rfl, ?_, ?_⟩
    (List.Perm.refl _) ho').1
  · exact (hS.imp fun h => Nat.ne_of_lt h).sublist (List.take_sublist _ _)
  · intro _
    refine List.pairwise_map.2 ?_
    exact (hS.sublist (List.take_sublist k S)).imp_of_mem fun hi hj => key _ (List.mem_of_mem_take hi) _ (List.mem_of_mem_take hj)
  · intro _ i hi j hj hn
    refine key i (List.mem_of_mem_take hi) j hj ?_
    rw [← List.take_append_drop k S] at hS hj
    exact (List.pairwise_append.1 hS).2.2 i hi j ((List.mem_append.1 hj).resolve_left hn)
end

theorem mem_zip_map {α β : Type} {f : α → β} {l : List α} {p : α × β} (h : p ∈ l.zip (l.map f)) : p.2 = f p.1 := by
  induction l with
  | nil => simp at h
  | cons x l ih =>
    rcases List.mem_cons.1 h with rfl | h
    · rfl
    · exact ih h

theorem liveOf_ascending {α : Type} (m : Nat → Option α) (n : Nat) : (liveOf m n).Pairwise (· < ·) :=
  List.pairwise_lt_range.sublist List.filter_sublist

section
variable {c : Cfg} {numCPU : Nat} {pol : BuildPolicy} {adds : List (Nat × List c.N.V)} {trees workers : Int} {s s' : Idx c}

theorem Session.added_length (h : Session c numCPU pol adds trees workers s s') {i : Nat} {v : List c.N.V} (hi : lastAdded adds i = some v) :
    v.length = c.L.f := by
  obtain ⟨N0, B, _⟩ := h.built
  exact (B.items i v hi).vec ▸ by simp [Node.vec]

theorem itemDist_added {m : Nat → Option (List c.N.V)} {q : List c.N.V} {i : Nat} {v : List c.N.V} (h : m i = some v) :
    itemDist c m q i = vecDist c q v := by
  unfold itemDist
  rw [h]

theorem level_of {m : Nat → Option (List c.N.V)} {q : List c.N.V} {d : c.N.V} (hd : ∀ i v, m i = some v → vecDist c q v = d) {i : Nat}
    (hi : (m i).isSome) : itemDist c m q i = d := by
  obtain ⟨v, hv⟩ := Option.isSome_iff_exists.1 hi
  rw [itemDist_added hv, hd i v hv]

/-- Searches of built indexes that see all items at one distance. -/
theorem Session.level (h : Session c numCPU pol adds trees workers s s') (hN : c.N.Lawful) (w : World) {q : List c.N.V} (hq : GoodQuery c q)
    {d : c.N.V} (hd : ∀ i v, lastAdded adds i = some v → vecDist c q v = d) (ho : c.N.Ordinary d) {k b : Int} {fuel : Nat} {ctx ctx' : Ctx c}
    {ids : List Nat} {ds : List c.N.V} (hr : s'.getNnsByVector fuel w q k b ctx = .ok (ids, ds, ctx')) :
    ids.Pairwise (· < ·) ∧ ds = List.replicate ids.length (c.D.normalizedDistance d) := by
  obtain ⟨S, -, h2, h3⟩ := C16_sound h hN w hq hr
  have := h3.level hN (fun i hi => level_of hd (h2 i hi)) ho
  exact ⟨this.1, this.2.1⟩

/-- The same of loaded indexes. -/
theorem Session.level_loaded (h : Session c numCPU pol adds trees workers s s') (hN : c.N.Lawful) (hn : 2 ≤ slotCount adds)
    (hroots : s'.roots ≠ []) (hk : c.L.CountKept (slotCount adds)) {w : World} {path : String} (hf : FileOf s' w path)
    {bk : Backend} {u t : Idx c} (hl : u.load bk w path = .ok (.nil, t)) {q : List c.N.V} (hq : GoodQuery c q)
    {d : c.N.V} (hd : ∀ i v, lastAdded adds i = some v → vecDist c q v = d) (ho : c.N.Ordinary d) {k b : Int} {fuel : Nat} {ctx ctx' : Ctx c}
    {ids : List Nat} {ds : List c.N.V} (hr : t.getNnsByVector fuel w q k b ctx = .ok (ids, ds, ctx')) :
    ids.Pairwise (· < ·) ∧ ds = List.replicate ids.length (c.D.normalizedDistance d) := by
  obtain ⟨S, -, h2, h3⟩ := C16_sound_loaded h hN hn hroots hk hf hl hq hr
  have := h3.level hN (fun i hi => level_of hd (h2 i hi)) ho
  exact ⟨this.1, this.2.1⟩

/-- With a budget of the number of items: the smallest indexes. -/
theorem Session.level_first (h : Session c numCPU pol adds trees workers s s') (hs : SplitsKept c numCPU pol (slotCount adds) trees workers)
    (hk : c.N.KeyLaws) (hM : MinKeys c) (w : World) {q : List c.N.V} (hq : GoodQuery c q) (hfin : FiniteBelow s' w q) (hne : s'.roots ≠ [])
    {d : c.N.V} (hd : ∀ i v, lastAdded adds i = some v → vecDist c q v = d) (ho : c.N.Ordinary d) {k b : Int} {fuel : Nat}
    (hb : ((addedIds adds).length : Int) ≤ (if b = -1 then k * s'.roots.length else b)) {ctx ctx' : Ctx c}
    {ids : List Nat} {ds : List c.N.V} (hr : s'.getNnsByVector fuel w q k b ctx = .ok (ids, ds, ctx')) :
    ids = (addedIds adds).take k.toNat ∧ ds = List.replicate ids.length (c.D.normalizedDistance d) := by
  have T := (h.C86_items_suffice hs hk hM w hq hfin hne hb hr).1
  have hd' : ∀ i ∈ addedIds adds, itemDist c (lastAdded adds) q i = d := fun i hi => level_of hd (mem_liveOf.1 hi).2
  exact ⟨T.level_take hk.lawful (liveOf_ascending _ _) hd' ho, (T.level hk.lawful hd' ho).2.1⟩

/-- The same of loaded indexes. -/
theorem Session.level_first_loaded (h : Session c numCPU pol adds trees workers s s')
    (hn : 2 ≤ slotCount adds) (hroots : s'.roots ≠ []) (hk : c.L.CountKept (slotCount adds))
    (hs : SplitsKept c numCPU pol (slotCount adds) trees workers) (hck : c.L.CopiesKept (slotCount adds)) (hkl : c.N.KeyLaws)
    (hM : MinKeys c) {w : World} {path : String} (hf : FileOf s' w path) {bk : Backend} {u t : Idx c}
    (hl : u.load bk w path = .ok (.nil, t)) {q : List c.N.V} (hq : GoodQuery c q) (hfin : FiniteBelow t w q)
    {d : c.N.V} (hd : ∀ i v, lastAdded adds i = some v → vecDist c q v = d) (ho : c.N.Ordinary d) {k b : Int} {fuel : Nat}
    (hb : ((addedIds adds).length : Int) ≤ (if b = -1 then k * t.roots.length else b)) {ctx ctx' : Ctx c}
    {ids : List Nat} {ds : List c.N.V} (hr : t.getNnsByVector fuel w q k b ctx = .ok (ids, ds, ctx')) :
    ids = (addedIds adds).take k.toNat ∧ ds = List.replicate ids.length (c.D.normalizedDistance d) := by
  have T := (h.C86_items_suffice_loaded hn hroots hk hs hck hkl hM hf hl hq hfin hb hr).1
  have hd' : ∀ i ∈ addedIds adds, itemDist c (lastAdded adds) q i = d := fun i hi => level_of hd (mem_liveOf.1 hi).2
  exact ⟨T.level_take hkl.lawful (liveOf_ascending _ _) hd' ho, (T.level hkl.lawful hd' ho).2.1⟩
end

/-! ## Angular and dot product indexes, any arithmetic -/

section
variable {N : Num} {C : Codec N.V} {R : Rng} {sI : List Nat → List Nat} {sP : List (N.V × Nat) → List (N.V × Nat)} {ix n numCPU : Nat}
  {pol : BuildPolicy} {adds : List (Nat × List N.V)} {trees workers : Int}

section
variable {s s' : Idx (angularCfg N C R sI sP ix n)}

theorem zeroDist (V : N.Vanish) (hM : N.MulLaws) (h : Session (angularCfg N C R sI sP ix n) numCPU pol adds trees workers s s') {q : List N.V}
    (hq : q.length = n) (hz : ZeroVector N q) (i : Nat) (v : List N.V) (hi : lastAdded adds i = some v) :
    vecDist (angularCfg N C R sI sP ix n) q v = N.two := by
  rw [vecDist_angular hM h.wf hq (h.added_length hi)]
  exact angularFormula_zero V hM (.inl hz)

/-- **C128, distances**: the distance between two items one of which is a zero vector is the square root of 2. -/
theorem C128_distance (V : N.Vanish) (hM : N.MulLaws) (h : Session (angularCfg N C R sI sP ix n) numCPU pol adds trees workers s s') (w : World)
    {i j : Nat} {v u : List N.V} (hi : lastAdded adds i = some v) (hj : lastAdded adds j = some u) (hz : ZeroVector N v ∨ ZeroVector N u) :
    s'.getDistance w i j = .ok (N.sqrt N.two) := by
  rw [C66_angular_value hM h w hi hj, angularFormula_zero V hM hz]

/-- **C128, zero items**: whatever the query, an item that is a zero vector is reported at the square root of 2. -/
theorem C128_zero_item (V : N.Vanish) (hM : N.MulLaws) (hN : N.Lawful) (h : Session (angularCfg N C R sI sP ix n) numCPU pol adds trees workers s s')
    (w : World) {q : List N.V} (h0 : 0 < n) (hq : q.length = n) {k b : Int} {fuel : Nat} {ctx ctx' : Ctx (angularCfg N C R sI sP ix n)}
    {ids : List Nat} {ds : List N.V} (hr : s'.getNnsByVector fuel w q k b ctx = .ok (ids, ds, ctx')) :
    ds.length = ids.length ∧ ∀ p ∈ ids.zip ds, ∀ v, lastAdded adds p.1 = some v → ZeroVector N v → p.2 = N.sqrt N.two := by
  obtain ⟨S, -, -, T⟩ := C16_sound h hN w ⟨hq, angular_marginOk hq h0⟩ hr
  refine ⟨(congrArg List.length T.dists).trans (List.length_map _), fun p hp v hv hz => ?_⟩
  rw [T.dists] at hp
  have e := mem_zip_map hp
  have e2 : itemDist (angularCfg N C R sI sP ix n) (lastAdded adds) q p.1 = N.two :=
    (itemDist_added (c := angularCfg N C R sI sP ix n) hv).trans ((vecDist_angular hM h.wf hq (h.added_length hv)).trans (angularFormula_zero V hM (.inr hz)))
  exact e.trans (congrArg N.sqrt e2)

/-- **C128, any budget**: a search of an angular index by a zero vector answers in ascending order of the indexes, with the square root of 2 for all of them. -/
theorem C128_ascending (V : N.Vanish) (hM : N.MulLaws) (hN : N.Lawful) (h : Session (angularCfg N C R sI sP ix n) numCPU pol adds trees workers s s')
    (w : World) {q : List N.V} (h0 : 0 < n) (hq : q.length = n) (hz : ZeroVector N q) {k b : Int} {fuel : Nat}
    {ctx ctx' : Ctx (angularCfg N C R sI sP ix n)} {ids : List Nat} {ds : List N.V}
    (hr : s'.getNnsByVector fuel w q k b ctx = .ok (ids, ds, ctx')) :
    ids.Pairwise (· < ·) ∧ ds = List.replicate ids.length (N.sqrt N.two) :=
  h.level hN w ⟨hq, angular_marginOk hq h0⟩ (zeroDist V hM h hq hz) V.two hr

/-- **C128, any budget, loaded indexes.** -/
theorem C128_ascending_loaded (V : N.Vanish) (hM : N.MulLaws) (hN : N.Lawful)
    (h : Session (angularCfg N C R sI sP ix n) numCPU pol adds trees workers s s') (h2 : 2 ≤ slotCount adds)
    (hroots : s'.roots ≠ []) (hk : (angularCfg N C R sI sP ix n).L.CountKept (slotCount adds)) {w : World} {path : String} (hf : FileOf s' w path)
    {bk : Backend} {x y : Idx (angularCfg N C R sI sP ix n)} (hl : x.load bk w path = .ok (.nil, y)) {q : List N.V} (h0 : 0 < n)
    (hq : q.length = n) (hz : ZeroVector N q) {k b : Int} {fuel : Nat} {ctx ctx' : Ctx (angularCfg N C R sI sP ix n)} {ids : List Nat} {ds : List N.V}
    (hr : y.getNnsByVector fuel w q k b ctx = .ok (ids, ds, ctx')) :
    ids.Pairwise (· < ·) ∧ ds = List.replicate ids.length (N.sqrt N.two) :=
  h.level_loaded hN h2 hroots hk hf hl ⟨hq, angular_marginOk hq h0⟩ (zeroDist V hM h hq hz) V.two hr
end

section
variable {s s' : Idx (dotCfg N C R sI sP ix n)}

theorem zeroDist_dot (V : N.Vanish) (hM : N.MulLaws) (hB : C.dec (List.replicate C.sz 0) = N.zero)
    (h : Session (dotCfg N C R sI sP ix n) numCPU pol adds trees workers s s') {q : List N.V}
    (hq : q.length = n) (hz : ZeroVector N q) (i : Nat) (v : List N.V) (hi : lastAdded adds i = some v) :
    vecDist (dotCfg N C R sI sP ix n) q v = N.two := by
  rw [vecDist_dot hM (by rw [hB]; exact V.zero) h.wf hq (h.added_length hi)]
  exact angularFormula_zero V hM (.inl hz)

/-- **C128, any budget, dot product**: -2 for all of them. -/
theorem C128_ascending_dot (V : N.Vanish) (hM : N.MulLaws) (hN : N.Lawful) (hB : C.dec (List.replicate C.sz 0) = N.zero)
    (h : Session (dotCfg N C R sI sP ix n) numCPU pol adds trees workers s s')
    (w : World) {q : List N.V} (h0 : 0 < n) (hq : q.length = n) (hz : ZeroVector N q) {k b : Int} {fuel : Nat}
    {ctx ctx' : Ctx (dotCfg N C R sI sP ix n)} {ids : List Nat} {ds : List N.V}
    (hr : s'.getNnsByVector fuel w q k b ctx = .ok (ids, ds, ctx')) :
    ids.Pairwise (· < ·) ∧ ds = List.replicate ids.length (N.neg N.two) :=
  h.level hN w ⟨hq, dot_marginOk hq h0⟩ (zeroDist_dot V hM hB h hq hz) V.two hr
end
end

/-! ## `float32` and `float64` -/

theorem Ieee.Fmt.eq_zero (F : Fmt) {x : Nat} (h : F.eq x 0 = true) : F.mag x = 0 := by
  unfold Fmt.eq at h
  simp only [Bool.and_eq_true, decide_eq_true_eq] at h
  have h2 := h.2
  have h' : F.key 0 = 0 := by unfold Fmt.key Fmt.mag; simp
  rw [h'] at h2
  unfold Fmt.key at h2
  split at h2 <;> omega

theorem Ieee.Fmt.zero_eq (F : Fmt) {x : Nat} (h : F.mag x = 0) : F.eq x 0 = true := by
  unfold Fmt.eq
  have h' : F.mag 0 = 0 := by unfold Fmt.mag; simp
  simp [Fmt.isNaN, h, h', Fmt.key]

theorem Ieee.Fmt.vanish_mul (F : Fmt) (hF : F.Ok) {x : Nat} (h : F.eq x 0 = true) : F.eq (F.mul x x) 0 = true := by
  have h0 := F.eq_zero h
  refine F.zero_eq ?_
  rw [F.mul_zero hF (by rw [h0]; exact F.infBits_pos hF) h0, Fmt.mag_signed (Nat.two_pow_pos _)]

theorem Ieee.Fmt.vanish_add (F : Fmt) (hF : F.Ok) {x y : Nat} (h : F.eq x 0 = true) (h' : F.eq y 0 = true) : F.eq (F.add x y) 0 = true := by
  refine F.zero_eq ?_
  rw [F.zero_add_zero hF (F.eq_zero h) (F.eq_zero h'), Fmt.mag_signed (Nat.two_pow_pos _)]

theorem vanish_mulBV {w : Nat} {F : Fmt} (hF : F.Ok) (hw : 2 ^ w = 2 * F.signBit) {x : BitVec w} (h : F.eq x.toNat 0 = true) :
    F.eq (BitVec.ofNat w (F.mul x.toNat x.toNat)).toNat 0 = true := by
  rw [BitVec.toNat_ofNat, Nat.mod_eq_of_lt (by rw [hw]; exact F.mul_lt hF _ _)]
  exact F.vanish_mul hF h

theorem vanish_addBV {w : Nat} {F : Fmt} (hF : F.Ok) (hw : 2 ^ w = 2 * F.signBit) {x y : BitVec w} (h : F.eq x.toNat 0 = true)
    (h' : F.eq y.toNat 0 = true) : F.eq (BitVec.ofNat w (F.add x.toNat y.toNat)).toNat 0 = true := by
  rw [BitVec.toNat_ofNat, Nat.mod_eq_of_lt (by rw [hw]; exact Fmt.add_lt hF _ _)]
  exact F.vanish_add hF h h'

theorem ieee32_vanish : ieee32.Vanish where
  mul _ h := vanish_mulBV (w := 32) f32_ok rfl h
  add _ _ h h' := vanish_addBV (w := 32) f32_ok rfl h h'
  zero := by decide
  two := by decide

theorem ieee64_vanish : ieee64.Vanish where
  mul _ h := vanish_mulBV (w := 64) f64_ok rfl h
  add _ _ h h' := vanish_addBV (w := 64) f64_ok rfl h h'
  zero := by decide
  two := by decide

/-- The square root of 2 in `float32` and `float64`, and -2. -/
theorem roots_of_two : BitVec.toNat (w := 32) (ieee32.sqrt ieee32.two) = 0x3FB504F3 ∧ BitVec.toNat (w := 64) (ieee64.sqrt ieee64.two) = 0x3FF6A09E667F3BCD ∧
    BitVec.toNat (w := 32) (ieee32.neg ieee32.two) = 0xC0000000 ∧ BitVec.toNat (w := 64) (ieee64.neg ieee64.two) = 0xC000000000000000 := by
  decide +kernel

theorem ZeroVector.small32 {q : List ieee32.V} (h : ZeroVector ieee32 q) {B : ℝ} (hB : 0 ≤ B) : ∀ x ∈ q, fin32 x ∧ |val32 x| ≤ B := by
  intro x hx
  have h0 : f32.mag x.toNat = 0 := f32.eq_zero (h x hx)
  refine ⟨by show f32.mag x.toNat < _; rw [h0]; decide, ?_⟩
  show |f32.real x.toNat| ≤ B
  rw [Fmt.abs_real, h0, Fmt.value_zero]
  exact hB

theorem ZeroVector.small64 {q : List ieee64.V} (h : ZeroVector ieee64 q) {B : ℝ} (hB : 0 ≤ B) : ∀ x ∈ q, fin64 x ∧ |val64 x| ≤ B := by
  intro x hx
  have h0 : f64.mag x.toNat = 0 := f64.eq_zero (h x hx)
  refine ⟨by show f64.mag x.toNat < _; rw [h0]; decide, ?_⟩
  show |f64.real x.toNat| ≤ B
  rw [Fmt.abs_real, h0, Fmt.value_zero]
  exact hB

section
variable {R : Rng} {sI : List Nat → List Nat} {sP : List (ieee32.V × Nat) → List (ieee32.V × Nat)} {ix n numCPU : Nat}
  {pol : BuildPolicy} {adds : List (Nat × List ieee32.V)} {trees workers : Int} {s s' : Idx (angularCfg ieee32 (bvCodec 4) R sI sP ix n)}

/-- **C128 for `float32`**, vectors of at least `3 * sizeof(TIX)` and at most `2^17` finite components of at most `2^54`: a search by a zero vector with a budget
of at least the number of items returns the items with the smallest indexes, with the square root of 2 for all of them. -/
theorem C128_float32 (h : Session (angularCfg ieee32 (bvCodec 4) R sI sP ix n) numCPU pol adds trees workers s s')
    (hix : 3 * ix ≤ n) (hn : n ≤ 2 ^ 17) (hitems : ∀ i v, lastAdded adds i = some v → ∀ x ∈ v, fin32 x ∧ |val32 x| ≤ 2 ^ 54) {q : List ieee32.V}
    (hq : q.length = n) (hz : ZeroVector ieee32 q) (hroots : s'.roots ≠ []) (w : World) {k b : Int} {fuel : Nat}
    {ctx ctx' : Ctx (angularCfg ieee32 (bvCodec 4) R sI sP ix n)} {ids : List Nat} {ds : List ieee32.V}
    (hb : ((addedIds adds).length : Int) ≤ (if b = -1 then k * s'.roots.length else b))
    (hr : s'.getNnsByVector fuel w q k b ctx = .ok (ids, ds, ctx')) :
    ids = (addedIds adds).take k.toNat ∧ ds = List.replicate ids.length (ieee32.sqrt ieee32.two) := by
  have hpos : 0 < ix := h.wf.layout.szIX_pos
  have hs := splitsKept_of_length h.wf hix h.fits
  exact h.level_first hs ieee32_keyLaws angular_minKeys w ⟨hq, angular_marginOk hq (by omega)⟩ (h.finiteBelow hs (C89_float32 h (splitsKept_of_length h.wf hix h.fits) (by omega) hn hitems w hq (hz.small32 (by positivity))))
    hroots (zeroDist ieee32_vanish ieee32_mulLaws h hq hz) ieee32_vanish.two hb hr

/-- **C128 for `float32`**, loaded indexes. -/
theorem C128_loaded_float32 (h : Session (angularCfg ieee32 (bvCodec 4) R sI sP ix n) numCPU pol adds trees workers s s')
    (hix : 3 * ix ≤ n) (hn : n ≤ 2 ^ 17) (hitems : ∀ i v, lastAdded adds i = some v → ∀ x ∈ v, fin32 x ∧ |val32 x| ≤ 2 ^ 54) {q : List ieee32.V}
    (hq : q.length = n) (hz : ZeroVector ieee32 q) (hroots : s'.roots ≠ []) (h2 : 2 ≤ slotCount adds)
    (hcp : (angularCfg ieee32 (bvCodec 4) R sI sP ix n).L.CopiesKept (slotCount adds)) {w : World} {path : String} (hf : FileOf s' w path)
    {bk : Backend} {x y : Idx (angularCfg ieee32 (bvCodec 4) R sI sP ix n)} (hl : x.load bk w path = .ok (.nil, y)) {k b : Int} {fuel : Nat}
    {ctx ctx' : Ctx (angularCfg ieee32 (bvCodec 4) R sI sP ix n)} {ids : List Nat} {ds : List ieee32.V}
    (hb : ((addedIds adds).length : Int) ≤ (if b = -1 then k * y.roots.length else b))
    (hr : y.getNnsByVector fuel w q k b ctx = .ok (ids, ds, ctx')) :
    ids = (addedIds adds).take k.toNat ∧ ds = List.replicate ids.length (ieee32.sqrt ieee32.two) := by
  have hpos : 0 < ix := h.wf.layout.szIX_pos
  have hs := splitsKept_of_length h.wf hix h.fits
  have hck := h.countKept (show ix ≤ n by omega)
  exact h.level_first_loaded h2 hroots hck hs hcp ieee32_keyLaws angular_minKeys hf hl ⟨hq, angular_marginOk hq (by omega)⟩
    (h.finiteBelow_loaded h2 hroots hck hs hcp hf hl (C89_float32 h (splitsKept_of_length h.wf hix h.fits) (by omega) hn hitems w hq (hz.small32 (by positivity))))
    (zeroDist ieee32_vanish ieee32_mulLaws h hq hz) ieee32_vanish.two hb hr

/-- **C128 for `float32`**, contexts: with at least three items the search is answered in a context of `CreateContext`. -/
theorem C128_answered_float32 (h : Session (angularCfg ieee32 (bvCodec 4) R sI sP ix n) numCPU pol adds trees workers s s')
    (hix : 3 * ix ≤ n) (hn : n ≤ 2 ^ 17) (hitems : ∀ i v, lastAdded adds i = some v → ∀ x ∈ v, fin32 x ∧ |val32 x| ≤ 2 ^ 54) {q : List ieee32.V}
    (hq : q.length = n) (hz : ZeroVector ieee32 q) (hroots : s'.roots ≠ []) (h3 : 3 ≤ (addedIds adds).length) (w : World) (k : Int) {fuel : Nat}
    (hf : 2 * (s'.nNodes - s'.nItems) < fuel) {ctx : Ctx (angularCfg ieee32 (bvCodec 4) R sI sP ix n)}
    (hctx : s'.createContext.nns.length ≤ ctx.nns.length) :
    ∃ ds ctx', s'.getNnsByVector fuel w q k (addedIds adds).length ctx = .ok ((addedIds adds).take k.toNat, ds, ctx') ∧
      ∀ d ∈ ds, d = ieee32.sqrt ieee32.two := by
  have hpos : 0 < ix := h.wf.layout.szIX_pos
  have hs := splitsKept_of_length h.wf hix h.fits
  have hne : ((addedIds adds).length : Int) ≠ -1 := by omega
  obtain ⟨⟨ids, ds, ctx'⟩, hr⟩ := h.C92_room hs ieee32_keyLaws angular_minKeys w ⟨hq, angular_marginOk hq (by omega)⟩
    (h.finiteBelow hs (C89_float32 h (splitsKept_of_length h.wf hix h.fits) (by omega) hn hitems w hq (hz.small32 (by positivity))))
    hroots (Or.inl h3) (k := k) (b := (addedIds adds).length) (by rw [if_neg hne]; exact le_refl _) hf hctx
  obtain ⟨rfl, e⟩ := C128_float32 h hix hn hitems hq hz hroots w (by rw [if_neg hne]) hr
  exact ⟨ds, ctx', hr, fun d hd => List.eq_of_mem_replicate (e ▸ hd)⟩
end

section
variable {R : Rng} {sI : List Nat → List Nat} {sP : List (ieee64.V × Nat) → List (ieee64.V × Nat)} {ix n numCPU : Nat}
  {pol : BuildPolicy} {adds : List (Nat × List ieee64.V)} {trees workers : Int} {s s' : Idx (angularCfg ieee64 (bvCodec 8) R sI sP ix n)}

/-- **C128 for `float64`**, vectors of at least `3 * sizeof(TIX)` and at most `2^46` finite components of at most `2^476`: a search by a zero vector with a budget
of at least the number of items returns the items with the smallest indexes, with the square root of 2 for all of them. -/
theorem C128_float64 (h : Session (angularCfg ieee64 (bvCodec 8) R sI sP ix n) numCPU pol adds trees workers s s')
    (hix : 3 * ix ≤ n) (hn : n ≤ 2 ^ 46) (hitems : ∀ i v, lastAdded adds i = some v → ∀ x ∈ v, fin64 x ∧ |val64 x| ≤ 2 ^ 476) {q : List ieee64.V}
    (hq : q.length = n) (hz : ZeroVector ieee64 q) (hroots : s'.roots ≠ []) (w : World) {k b : Int} {fuel : Nat}
    {ctx ctx' : Ctx (angularCfg ieee64 (bvCodec 8) R sI sP ix n)} {ids : List Nat} {ds : List ieee64.V}
    (hb : ((addedIds adds).length : Int) ≤ (if b = -1 then k * s'.roots.length else b))
    (hr : s'.getNnsByVector fuel w q k b ctx = .ok (ids, ds, ctx')) :
    ids = (addedIds adds).take k.toNat ∧ ds = List.replicate ids.length (ieee64.sqrt ieee64.two) := by
  have hpos : 0 < ix := h.wf.layout.szIX_pos
  have hs := splitsKept_of_length h.wf hix h.fits
  exact h.level_first hs ieee64_keyLaws angular_minKeys w ⟨hq, angular_marginOk hq (by omega)⟩ (h.finiteBelow hs (C89_float64 h (splitsKept_of_length h.wf hix h.fits) (by omega) hn hitems w hq (hz.small64 (by positivity))))
    hroots (zeroDist ieee64_vanish ieee64_mulLaws h hq hz) ieee64_vanish.two hb hr

/-- **C128 for `float64`**, loaded indexes. -/
theorem C128_loaded_float64 (h : Session (angularCfg ieee64 (bvCodec 8) R sI sP ix n) numCPU pol adds trees workers s s')
    (hix : 3 * ix ≤ n) (hn : n ≤ 2 ^ 46) (hitems : ∀ i v, lastAdded adds i = some v → ∀ x ∈ v, fin64 x ∧ |val64 x| ≤ 2 ^ 476) {q : List ieee64.V}
    (hq : q.length = n) (hz : ZeroVector ieee64 q) (hroots : s'.roots ≠ []) (h2 : 2 ≤ slotCount adds)
    (hcp : (angularCfg ieee64 (bvCodec 8) R sI sP ix n).L.CopiesKept (slotCount adds)) {w : World} {path : String} (hf : FileOf s' w path)
    {bk : Backend} {x y : Idx (angularCfg ieee64 (bvCodec 8) R sI sP ix n)} (hl : x.load bk w path = .ok (.nil, y)) {k b : Int} {fuel : Nat}
    {ctx ctx' : Ctx (angularCfg ieee64 (bvCodec 8) R sI sP ix n)} {ids : List Nat} {ds : List ieee64.V}
    (hb : ((addedIds adds).length : Int) ≤ (if b = -1 then k * y.roots.length else b))
    (hr : y.getNnsByVector fuel w q k b ctx = .ok (ids, ds, ctx')) :
    ids = (addedIds adds).take k.toNat ∧ ds = List.replicate ids.length (ieee64.sqrt ieee64.two) := by
  have hpos : 0 < ix := h.wf.layout.szIX_pos
  have hs := splitsKept_of_length h.wf hix h.fits
  have hck := h.countKept (show ix ≤ n by omega)
  exact h.level_first_loaded h2 hroots hck hs hcp ieee64_keyLaws angular_minKeys hf hl ⟨hq, angular_marginOk hq (by omega)⟩
    (h.finiteBelow_loaded h2 hroots hck hs hcp hf hl (C89_float64 h (splitsKept_of_length h.wf hix h.fits) (by omega) hn hitems w hq (hz.small64 (by positivity))))
    (zeroDist ieee64_vanish ieee64_mulLaws h hq hz) ieee64_vanish.two hb hr

/-- **C128 for `float64`**, contexts: with at least three items the search is answered in a context of `CreateContext`. -/
theorem C128_answered_float64 (h : Session (angularCfg ieee64 (bvCodec 8) R sI sP ix n) numCPU pol adds trees workers s s')
    (hix : 3 * ix ≤ n) (hn : n ≤ 2 ^ 46) (hitems : ∀ i v, lastAdded adds i = some v → ∀ x ∈ v, fin64 x ∧ |val64 x| ≤ 2 ^ 476) {q : List ieee64.V}
    (hq : q.length = n) (hz : ZeroVector ieee64 q) (hroots : s'.roots ≠ []) (h3 : 3 ≤ (addedIds adds).length) (w : World) (k : Int) {fuel : Nat}
    (hf : 2 * (s'.nNodes - s'.nItems) < fuel) {ctx : Ctx (angularCfg ieee64 (bvCodec 8) R sI sP ix n)}
    (hctx : s'.createContext.nns.length ≤ ctx.nns.length) :
    ∃ ds ctx', s'.getNnsByVector fuel w q k (addedIds adds).length ctx = .ok ((addedIds adds).take k.toNat, ds, ctx') ∧
      ∀ d ∈ ds, d = ieee64.sqrt ieee64.two := by
  have hpos : 0 < ix := h.wf.layout.szIX_pos
  have hs := splitsKept_of_length h.wf hix h.fits
  have hne : ((addedIds adds).length : Int) ≠ -1 := by omega
  obtain ⟨⟨ids, ds, ctx'⟩, hr⟩ := h.C92_room hs ieee64_keyLaws angular_minKeys w ⟨hq, angular_marginOk hq (by omega)⟩
    (h.finiteBelow hs (C89_float64 h (splitsKept_of_length h.wf hix h.fits) (by omega) hn hitems w hq (hz.small64 (by positivity))))
    hroots (Or.inl h3) (k := k) (b := (addedIds adds).length) (by rw [if_neg hne]; exact le_refl _) hf hctx
  obtain ⟨rfl, e⟩ := C128_float64 h hix hn hitems hq hz hroots w (by rw [if_neg hne]) hr
  exact ⟨ds, ctx', hr, fun d hd => List.eq_of_mem_replicate (e ▸ hd)⟩
end

section
variable {R : Rng} {sI : List Nat → List Nat} {sP : List (ieee32.V × Nat) → List (ieee32.V × Nat)} {ix n numCPU : Nat}
  {pol : BuildPolicy} {adds : List (Nat × List ieee32.V)} {trees workers : Int} {s s' : Idx (dotCfg ieee32 (bvCodec 4) R sI sP ix n)}

/-- **C128 for `float32`**, dot product, vectors of at least `3 * sizeof(TIX)` and at most `2^17` finite components of at most `2^54`: a search by a zero vector with a budget
of at least the number of items returns the items with the smallest indexes, with -2 for all of them. -/
theorem C128_dot32 (h : Session (dotCfg ieee32 (bvCodec 4) R sI sP ix n) numCPU pol adds trees workers s s')
    (hix : 3 * ix ≤ n) (hn : n ≤ 2 ^ 17) (hitems : ∀ i v, lastAdded adds i = some v → ∀ x ∈ v, fin32 x ∧ |val32 x| ≤ 2 ^ 54) {q : List ieee32.V}
    (hq : q.length = n) (hz : ZeroVector ieee32 q) (hroots : s'.roots ≠ []) (w : World) {k b : Int} {fuel : Nat}
    {ctx ctx' : Ctx (dotCfg ieee32 (bvCodec 4) R sI sP ix n)} {ids : List Nat} {ds : List ieee32.V}
    (hb : ((addedIds adds).length : Int) ≤ (if b = -1 then k * s'.roots.length else b))
    (hr : s'.getNnsByVector fuel w q k b ctx = .ok (ids, ds, ctx')) :
    ids = (addedIds adds).take k.toNat ∧ ds = List.replicate ids.length (ieee32.neg ieee32.two) := by
  have hpos : 0 < ix := h.wf.layout.szIX_pos
  have hs := splitsKept_of_length h.wf hix h.fits
  exact h.level_first hs ieee32_keyLaws dot_minKeys w ⟨hq, dot_marginOk hq (by omega)⟩ (h.finiteBelow hs (C99_float32 h (splitsKept_of_length h.wf hix h.fits) (by omega) hn hitems w hq (hz.small32 (by positivity))))
    hroots (zeroDist_dot ieee32_vanish ieee32_mulLaws dotArith32.blank h hq hz) ieee32_vanish.two hb hr

/-- **C128 for `float32`**, dot product, loaded indexes. -/
theorem C128_loaded_dot32 (h : Session (dotCfg ieee32 (bvCodec 4) R sI sP ix n) numCPU pol adds trees workers s s')
    (hix : 3 * ix ≤ n) (hn : n ≤ 2 ^ 17) (hitems : ∀ i v, lastAdded adds i = some v → ∀ x ∈ v, fin32 x ∧ |val32 x| ≤ 2 ^ 54) {q : List ieee32.V}
    (hq : q.length = n) (hz : ZeroVector ieee32 q) (hroots : s'.roots ≠ []) (h2 : 2 ≤ slotCount adds)
    (hcp : (dotCfg ieee32 (bvCodec 4) R sI sP ix n).L.CopiesKept (slotCount adds)) {w : World} {path : String} (hf : FileOf s' w path)
    {bk : Backend} {x y : Idx (dotCfg ieee32 (bvCodec 4) R sI sP ix n)} (hl : x.load bk w path = .ok (.nil, y)) {k b : Int} {fuel : Nat}
    {ctx ctx' : Ctx (dotCfg ieee32 (bvCodec 4) R sI sP ix n)} {ids : List Nat} {ds : List ieee32.V}
    (hb : ((addedIds adds).length : Int) ≤ (if b = -1 then k * y.roots.length else b))
    (hr : y.getNnsByVector fuel w q k b ctx = .ok (ids, ds, ctx')) :
    ids = (addedIds adds).take k.toNat ∧ ds = List.replicate ids.length (ieee32.neg ieee32.two) := by
  have hpos : 0 < ix := h.wf.layout.szIX_pos
  have hs := splitsKept_of_length h.wf hix h.fits
  have hck := h.countKept (show ix ≤ n by omega)
  exact h.level_first_loaded h2 hroots hck hs hcp ieee32_keyLaws dot_minKeys hf hl ⟨hq, dot_marginOk hq (by omega)⟩
    (h.finiteBelow_loaded h2 hroots hck hs hcp hf hl (C99_float32 h (splitsKept_of_length h.wf hix h.fits) (by omega) hn hitems w hq (hz.small32 (by positivity))))
    (zeroDist_dot ieee32_vanish ieee32_mulLaws dotArith32.blank h hq hz) ieee32_vanish.two hb hr

/-- **C128 for `float32`**, dot product, contexts: with at least three items the search is answered in a context of `CreateContext`. -/
theorem C128_answered_dot32 (h : Session (dotCfg ieee32 (bvCodec 4) R sI sP ix n) numCPU pol adds trees workers s s')
    (hix : 3 * ix ≤ n) (hn : n ≤ 2 ^ 17) (hitems : ∀ i v, lastAdded adds i = some v → ∀ x ∈ v, fin32 x ∧ |val32 x| ≤ 2 ^ 54) {q : List ieee32.V}
    (hq : q.length = n) (hz : ZeroVector ieee32 q) (hroots : s'.roots ≠ []) (h3 : 3 ≤ (addedIds adds).length) (w : World) (k : Int) {fuel : Nat}
    (hf : 2 * (s'.nNodes - s'.nItems) < fuel) {ctx : Ctx (dotCfg ieee32 (bvCodec 4) R sI sP ix n)}
    (hctx : s'.createContext.nns.length ≤ ctx.nns.length) :
    ∃ ds ctx', s'.getNnsByVector fuel w q k (addedIds adds).length ctx = .ok ((addedIds adds).take k.toNat, ds, ctx') ∧
      ∀ d ∈ ds, d = ieee32.neg ieee32.two := by
  have hpos : 0 < ix := h.wf.layout.szIX_pos
  have hs := splitsKept_of_length h.wf hix h.fits
  have hne : ((addedIds adds).length : Int) ≠ -1 := by omega
  obtain ⟨⟨ids, ds, ctx'⟩, hr⟩ := h.C92_room hs ieee32_keyLaws dot_minKeys w ⟨hq, dot_marginOk hq (by omega)⟩
    (h.finiteBelow hs (C99_float32 h (splitsKept_of_length h.wf hix h.fits) (by omega) hn hitems w hq (hz.small32 (by positivity))))
    hroots (Or.inl h3) (k := k) (b := (addedIds adds).length) (by rw [if_neg hne]; exact le_refl _) hf hctx
  obtain ⟨rfl, e⟩ := C128_dot32 h hix hn hitems hq hz hroots w (by rw [if_neg hne]) hr
  exact ⟨ds, ctx', hr, fun d hd => List.eq_of_mem_replicate (e ▸ hd)⟩
end

section
variable {R : Rng} {sI : List Nat → List Nat} {sP : List (ieee64.V × Nat) → List (ieee64.V × Nat)} {ix n numCPU : Nat}
  {pol : BuildPolicy} {adds : List (Nat × List ieee64.V)} {trees workers : Int} {s s' : Idx (dotCfg ieee64 (bvCodec 8) R sI sP ix n)}

/-- **C128 for `float64`**, dot product, vectors of at least `3 * sizeof(TIX)` and at most `2^46` finite components of at most `2^476`: a search by a zero vector with a budget
of at least the number of items returns the items with the smallest indexes, with -2 for all of them. -/
theorem C128_dot64 (h : Session (dotCfg ieee64 (bvCodec 8) R sI sP ix n) numCPU pol adds trees workers s s')
    (hix : 3 * ix ≤ n) (hn : n ≤ 2 ^ 46) (hitems : ∀ i v, lastAdded adds i = some v → ∀ x ∈ v, fin64 x ∧ |val64 x| ≤ 2 ^ 476) {q : List ieee64.V}
    (hq : q.length = n) (hz : ZeroVector ieee64 q) (hroots : s'.roots ≠ []) (w : World) {k b : Int} {fuel : Nat}
    {ctx ctx' : Ctx (dotCfg ieee64 (bvCodec 8) R sI sP ix n)} {ids : List Nat} {ds : List ieee64.V}
    (hb : ((addedIds adds).length : Int) ≤ (if b = -1 then k * s'.roots.length else b))
    (hr : s'.getNnsByVector fuel w q k b ctx = .ok (ids, ds, ctx')) :
    ids = (addedIds adds).take k.toNat ∧ ds = List.replicate ids.length (ieee64.neg ieee64.two) := by
  have hpos : 0 < ix := h.wf.layout.szIX_pos
  have hs := splitsKept_of_length h.wf hix h.fits
  exact h.level_first hs ieee64_keyLaws dot_minKeys w ⟨hq, dot_marginOk hq (by omega)⟩ (h.finiteBelow hs (C99_float64 h (splitsKept_of_length h.wf hix h.fits) (by omega) hn hitems w hq (hz.small64 (by positivity))))
    hroots (zeroDist_dot ieee64_vanish ieee64_mulLaws dotArith64.blank h hq hz) ieee64_vanish.two hb hr

/-- **C128 for `float64`**, dot product, loaded indexes. -/
theorem C128_loaded_dot64 (h : Session (dotCfg ieee64 (bvCodec 8) R sI sP ix n) numCPU pol adds trees workers s s')
    (hix : 3 * ix ≤ n) (hn : n ≤ 2 ^ 46) (hitems : ∀ i v, lastAdded adds i = some v → ∀ x ∈ v, fin64 x ∧ |val64 x| ≤ 2 ^ 476) {q : List ieee64.V}
    (hq : q.length = n) (hz : ZeroVector ieee64 q) (hroots : s'.roots ≠ []) (h2 : 2 ≤ slotCount adds)
    (hcp : (dotCfg ieee64 (bvCodec 8) R sI sP ix n).L.CopiesKept (slotCount adds)) {w : World} {path : String} (hf : FileOf s' w path)
    {bk : Backend} {x y : Idx (dotCfg ieee64 (bvCodec 8) R sI sP ix n)} (hl : x.load bk w path = .ok (.nil, y)) {k b : Int} {fuel : Nat}
    {ctx ctx' : Ctx (dotCfg ieee64 (bvCodec 8) R sI sP ix n)} {ids : List Nat} {ds : List ieee64.V}
    (hb : ((addedIds adds).length : Int) ≤ (if b = -1 then k * y.roots.length else b))
    (hr : y.getNnsByVector fuel w q k b ctx = .ok (ids, ds, ctx')) :
    ids = (addedIds adds).take k.toNat ∧ ds = List.replicate ids.length (ieee64.neg ieee64.two) := by
  have hpos : 0 < ix := h.wf.layout.szIX_pos
  have hs := splitsKept_of_length h.wf hix h.fits
  have hck := h.countKept (show ix ≤ n by omega)
  exact h.level_first_loaded h2 hroots hck hs hcp ieee64_keyLaws dot_minKeys hf hl ⟨hq, dot_marginOk hq (by omega)⟩
    (h.finiteBelow_loaded h2 hroots hck hs hcp hf hl (C99_float64 h (splitsKept_of_length h.wf hix h.fits) (by omega) hn hitems w hq (hz.small64 (by positivity))))
    (zeroDist_dot ieee64_vanish ieee64_mulLaws dotArith64.blank h hq hz) ieee64_vanish.two hb hr

/-- **C128 for `float64`**, dot product, contexts: with at least three items the search is answered in a context of `CreateContext`. -/
theorem C128_answered_dot64 (h : Session (dotCfg ieee64 (bvCodec 8) R sI sP ix n) numCPU pol adds trees workers s s')
    (hix : 3 * ix ≤ n) (hn : n ≤ 2 ^ 46) (hitems : ∀ i v, lastAdded adds i = some v → ∀ x ∈ v, fin64 x ∧ |val64 x| ≤ 2 ^ 476) {q : List ieee64.V}
    (hq : q.length = n) (hz : ZeroVector ieee64 q) (hroots : s'.roots ≠ []) (h3 : 3 ≤ (addedIds adds).length) (w : World) (k : Int) {fuel : Nat}
    (hf : 2 * (s'.nNodes - s'.nItems) < fuel) {ctx : Ctx (dotCfg ieee64 (bvCodec 8) R sI sP ix n)}
    (hctx : s'.createContext.nns.length ≤ ctx.nns.length) :
    ∃ ds ctx', s'.getNnsByVector fuel w q k (addedIds adds).length ctx = .ok ((addedIds adds).take k.toNat, ds, ctx') ∧
      ∀ d ∈ ds, d = ieee64.neg ieee64.two := by
  have hpos : 0 < ix := h.wf.layout.szIX_pos
  have hs := splitsKept_of_length h.wf hix h.fits
  have hne : ((addedIds adds).length : Int) ≠ -1 := by omega
  obtain ⟨⟨ids, ds, ctx'⟩, hr⟩ := h.C92_room hs ieee64_keyLaws dot_minKeys w ⟨hq, dot_marginOk hq (by omega)⟩
    (h.finiteBelow hs (C99_float64 h (splitsKept_of_length h.wf hix h.fits) (by omega) hn hitems w hq (hz.small64 (by positivity))))
    hroots (Or.inl h3) (k := k) (b := (addedIds adds).length) (by rw [if_neg hne]; exact le_refl _) hf hctx
  obtain ⟨rfl, e⟩ := C128_dot64 h hix hn hitems hq hz hroots w (by rw [if_neg hne]) hr
  exact ⟨ds, ctx', hr, fun d hd => List.eq_of_mem_replicate (e ▸ hd)⟩
end

theorem zeros12 : ZeroVector ieee32 (List.replicate 6 (0 : BitVec 32) ++ List.replicate 6 (0x80000000 : BitVec 32)) := by
  intro x hx
  rcases List.mem_append.1 hx with hx | hx
  · obtain rfl := List.eq_of_mem_replicate hx
    decide
  · obtain rfl := List.eq_of_mem_replicate hx
    decide

/-- Twenty items of length 12 in three trees: the hypotheses of the theorems above hold for a query of zeros of both signs; the five nearest neighbours
of it are the items 0 to 4. -/
example : ∃ s s', Session (angular32 4 12) 1 .single (longAdds 20) 3 1 s s' ∧ 3 * 4 ≤ 12 ∧
    (∀ i v, lastAdded (longAdds 20) i = some v → ∀ x ∈ v, fin32 x ∧ |val32 x| ≤ 2 ^ 54) ∧
    ZeroVector ieee32 (List.replicate 6 (0 : BitVec 32) ++ List.replicate 6 (0x80000000 : BitVec 32)) ∧ s'.roots ≠ [] ∧ 3 ≤ (addedIds (longAdds 20)).length ∧
    (addedIds (longAdds 20)).take 5 = [0, 1, 2, 3, 4] := by
  obtain ⟨s, s', -, h, h1, -⟩ := C76_build (c := angular32 4 12) (.angular32 (by decide) (by decide)) 1 (longAdds 20) (legalAdds_of (by decide +kernel)) (Kiss32.new 0) 0 3 1
    (by decide +kernel)
  exact ⟨s, s', h, le_rfl, fun i v hi => (longAdds_moderate i v hi).bound (by norm_num), zeros12,
    fun e => by have := h1 (by decide); rw [e] at this; exact absurd this (by decide), by decide +kernel, by decide +kernel⟩

end Annoy
