import Verif.Props.ZeroVector
/-!
# C129: with ordinary data the items and the query alone decide the answer

The answers of an index are written here as a function of the items, the query and `numReturn` only.  Neither the index type, nor the generator, the number
of trees, of workers, the schedule, the way of loading appears in it, nor even the metric: an angular and a dot product index return the same items.
-/
namespace Annoy
open Ieee

/-- The angular formula of the query and item `i`. -/
def formulaDist (N : Num) (m : Nat → Option (List N.V)) (q : List N.V) (i : Nat) : N.V :=
  match m i with
  | some v => angularFormula N q v
  | none => N.zero

/-- The `k` items with the smallest values of the formula, by brute force. -/
noncomputable def bruteForce (N : Num) (adds : List (Nat × List N.V)) (q : List N.V) (k : Nat) : List Nat :=
  nearest N (formulaDist N (lastAdded adds) q) (addedIds adds) k

theorem zip_map_mem {α β : Type} {f : α → β} {l : List α} {x : α} (h : x ∈ l) : (x, f x) ∈ l.zip (l.map f) := by
  induction l with
  | nil => simp at h
  | cons y l ih =>
    rcases List.mem_cons.1 h with rfl | h
    · exact List.mem_cons_self
    · exact List.mem_cons_of_mem _ (ih h)

theorem TopK.congr {N : Num} {norm : N.V → N.V} {δ δ' : Nat → N.V} {S : List Nat} {k : Nat} {ids : List Nat} {ds : List N.V}
    (h : TopK N norm δ S k ids ds) (he : ∀ i ∈ S, δ i = δ' i) : TopK N norm δ' S k ids ds where
  length := h.length
  nodup := h.nodup
  sub := h.sub
  dists := h.dists.trans (List.map_congr_left fun i hi => by rw [he i (h.sub i hi)])
  sorted ho := by
    have := h.sorted fun i hi => by rw [he i hi]; exact ho i hi
    refine List.pairwise_map.2 ((List.pairwise_map.1 this).imp_of_mem fun hi hj hij => ?_)
    rw [he _ (h.sub _ hi), he _ (h.sub _ hj)] at hij
    exact hij
  least ho i hi j hj hn := by
    have := h.least (fun i hi => by rw [he i hi]; exact ho i hi) i hi j hj hn
    rwa [he i (h.sub i hi), he j hj] at this

section
variable {c : Cfg} {adds : List (Nat × List c.N.V)}

theorem itemDist_formula {q : List c.N.V} (hd : ∀ i v, lastAdded adds i = some v → vecDist c q v = angularFormula c.N q v) (i : Nat) :
    itemDist c (lastAdded adds) q i = formulaDist c.N (lastAdded adds) q i := by
  unfold itemDist formulaDist
  cases hi : lastAdded adds i with
  | none => rfl
  | some v => exact hd i v hi

/-- A linear scan over the added items is `bruteForce`. -/
theorem TopK.bruteForce (hN : c.N.Lawful) {q : List c.N.V} (hd : ∀ i v, lastAdded adds i = some v → vecDist c q v = angularFormula c.N q v)
    (ho : ∀ i ∈ addedIds adds, c.N.Ordinary (itemDist c (lastAdded adds) q i)) {norm : c.N.V → c.N.V} {k : Nat} {ids : List Nat} {ds : List c.N.V}
    (T : TopK c.N norm (itemDist c (lastAdded adds) q) (addedIds adds) k ids ds) :
    ids = Annoy.bruteForce c.N adds q k ∧ ds = (Annoy.bruteForce c.N adds q k).map fun i => norm (formulaDist c.N (lastAdded adds) q i) := by
  have T' := T.congr fun i _ => itemDist_formula hd i
  have ho' : ∀ i ∈ addedIds adds, c.N.Ordinary (formulaDist c.N (lastAdded adds) q i) := fun i hi => by
    rw [← itemDist_formula hd]; exact ho i hi
  exact T'.unique hN (nearest_topK hN norm (liveOf_nodup _ _) ho' k) (List.Perm.refl _) ho'
end

section
variable {R : Rng} {sI : List Nat → List Nat} {sP : List (ieee32.V × Nat) → List (ieee32.V × Nat)} {ix n numCPU : Nat}
  {pol : BuildPolicy} {adds : List (Nat × List ieee32.V)} {trees workers : Int} {s s' : Idx (angularCfg ieee32 (bvCodec 4) R sI sP ix n)}

/-- **C129 for `float32`**, vectors of at least `3 * sizeof(TIX)` components and of moderate norm: with a budget of at least the number of items
the answer is the one by brute force, bit for bit. -/
theorem C129_float32 (h : Session (angularCfg ieee32 (bvCodec 4) R sI sP ix n) numCPU pol adds trees workers s s')
    (hix : 3 * ix ≤ n) (hn : n ≤ 2 ^ 17) (hv : ∀ i v, lastAdded adds i = some v → Moderate32 n v) {q : List ieee32.V} (hq : Moderate32 n q)
    (hroots : s'.roots ≠ []) (w : World) {k b : Int} {fuel : Nat} {ctx ctx' : Ctx (angularCfg ieee32 (bvCodec 4) R sI sP ix n)} {ids : List Nat}
    {ds : List ieee32.V} (hb : ((addedIds adds).length : Int) ≤ (if b = -1 then k * s'.roots.length else b))
    (hr : s'.getNnsByVector fuel w q k b ctx = .ok (ids, ds, ctx')) :
    ids = bruteForce ieee32 adds q k.toNat ∧ ds = (bruteForce ieee32 adds q k.toNat).map fun i => ieee32.sqrt (formulaDist ieee32 (lastAdded adds) q i) := by
  have hpos : 0 < ix := h.wf.layout.szIX_pos
  have hs := splitsKept_of_length h.wf hix h.fits
  exact (h.C86_items_suffice hs ieee32_keyLaws angular_minKeys w ⟨hq.length, angular_marginOk hq.length (by omega)⟩ (h.finiteBelow hs (margins32 h hix hn hv hq w))
    hroots hb hr).1.bruteForce ieee32_keyLaws.lawful (fun i v hv => vecDist_angular ieee32_mulLaws h.wf hq.length (h.added_length hv))
    (fun i hi => (arith32 hn).approx.ordinary _ ((arith32 hn).itemDist h.wf hq (mem_addedIds.1 hi) (hv i)).1)

/-- **C129 for `float32`**, loaded indexes. -/
theorem C129_loaded_float32 (h : Session (angularCfg ieee32 (bvCodec 4) R sI sP ix n) numCPU pol adds trees workers s s')
    (hix : 3 * ix ≤ n) (hn : n ≤ 2 ^ 17) (hv : ∀ i v, lastAdded adds i = some v → Moderate32 n v) {q : List ieee32.V} (hq : Moderate32 n q)
    (hroots : s'.roots ≠ []) (h2 : 2 ≤ slotCount adds)
    (hcp : (angularCfg ieee32 (bvCodec 4) R sI sP ix n).L.CopiesKept (slotCount adds)) {w : World} {path : String} (hf : FileOf s' w path)
    {bk : Backend} {x y : Idx (angularCfg ieee32 (bvCodec 4) R sI sP ix n)} (hl : x.load bk w path = .ok (.nil, y))
    {k b : Int} {fuel : Nat} {ctx ctx' : Ctx (angularCfg ieee32 (bvCodec 4) R sI sP ix n)} {ids : List Nat}
    {ds : List ieee32.V} (hb : ((addedIds adds).length : Int) ≤ (if b = -1 then k * y.roots.length else b))
    (hr : y.getNnsByVector fuel w q k b ctx = .ok (ids, ds, ctx')) :
    ids = bruteForce ieee32 adds q k.toNat ∧ ds = (bruteForce ieee32 adds q k.toNat).map fun i => ieee32.sqrt (formulaDist ieee32 (lastAdded adds) q i) := by
  have hpos : 0 < ix := h.wf.layout.szIX_pos
  have hs := splitsKept_of_length h.wf hix h.fits
  have hck := h.countKept (show ix ≤ n by omega)
  exact (h.C86_items_suffice_loaded h2 hroots hck hs hcp ieee32_keyLaws angular_minKeys hf hl ⟨hq.length, angular_marginOk hq.length (by omega)⟩
    (h.finiteBelow_loaded h2 hroots hck hs hcp hf hl (margins32 h hix hn hv hq w)) hb hr).1.bruteForce ieee32_keyLaws.lawful
    (fun i v hv => vecDist_angular ieee32_mulLaws h.wf hq.length (h.added_length hv))
    (fun i hi => (arith32 hn).approx.ordinary _ ((arith32 hn).itemDist h.wf hq (mem_addedIds.1 hi) (hv i)).1)
end

section
variable {R : Rng} {sI : List Nat → List Nat} {sP : List (ieee64.V × Nat) → List (ieee64.V × Nat)} {ix n numCPU : Nat}
  {pol : BuildPolicy} {adds : List (Nat × List ieee64.V)} {trees workers : Int} {s s' : Idx (angularCfg ieee64 (bvCodec 8) R sI sP ix n)}

/-- **C129 for `float64`**, vectors of at least `3 * sizeof(TIX)` components and of moderate norm: with a budget of at least the number of items
the answer is the one by brute force, bit for bit. -/
theorem C129_float64 (h : Session (angularCfg ieee64 (bvCodec 8) R sI sP ix n) numCPU pol adds trees workers s s')
    (hix : 3 * ix ≤ n) (hn : n ≤ 2 ^ 46) (hv : ∀ i v, lastAdded adds i = some v → Moderate64 n v) {q : List ieee64.V} (hq : Moderate64 n q)
    (hroots : s'.roots ≠ []) (w : World) {k b : Int} {fuel : Nat} {ctx ctx' : Ctx (angularCfg ieee64 (bvCodec 8) R sI sP ix n)} {ids : List Nat}
    {ds : List ieee64.V} (hb : ((addedIds adds).length : Int) ≤ (if b = -1 then k * s'.roots.length else b))
    (hr : s'.getNnsByVector fuel w q k b ctx = .ok (ids, ds, ctx')) :
    ids = bruteForce ieee64 adds q k.toNat ∧ ds = (bruteForce ieee64 adds q k.toNat).map fun i => ieee64.sqrt (formulaDist ieee64 (lastAdded adds) q i) := by
  have hpos : 0 < ix := h.wf.layout.szIX_pos
  have hs := splitsKept_of_length h.wf hix h.fits
  exact (h.C86_items_suffice hs ieee64_keyLaws angular_minKeys w ⟨hq.length, angular_marginOk hq.length (by omega)⟩ (h.finiteBelow hs (margins64 h hix hn hv hq w))
    hroots hb hr).1.bruteForce ieee64_keyLaws.lawful (fun i v hv => vecDist_angular ieee64_mulLaws h.wf hq.length (h.added_length hv))
    (fun i hi => (arith64 hn).approx.ordinary _ ((arith64 hn).itemDist h.wf hq (mem_addedIds.1 hi) (hv i)).1)

/-- **C129 for `float64`**, loaded indexes. -/
theorem C129_loaded_float64 (h : Session (angularCfg ieee64 (bvCodec 8) R sI sP ix n) numCPU pol adds trees workers s s')
    (hix : 3 * ix ≤ n) (hn : n ≤ 2 ^ 46) (hv : ∀ i v, lastAdded adds i = some v → Moderate64 n v) {q : List ieee64.V} (hq : Moderate64 n q)
    (hroots : s'.roots ≠ []) (h2 : 2 ≤ slotCount adds)
    (hcp : (angularCfg ieee64 (bvCodec 8) R sI sP ix n).L.CopiesKept (slotCount adds)) {w : World} {path : String} (hf : FileOf s' w path)
    {bk : Backend} {x y : Idx (angularCfg ieee64 (bvCodec 8) R sI sP ix n)} (hl : x.load bk w path = .ok (.nil, y))
    {k b : Int} {fuel : Nat} {ctx ctx' : Ctx (angularCfg ieee64 (bvCodec 8) R sI sP ix n)} {ids : List Nat}
    {ds : List ieee64.V} (hb : ((addedIds adds).length : Int) ≤ (if b = -1 then k * y.roots.length else b))
    (hr : y.getNnsByVector fuel w q k b ctx = .ok (ids, ds, ctx')) :
    ids = bruteForce ieee64 adds q k.toNat ∧ ds = (bruteForce ieee64 adds q k.toNat).map fun i => ieee64.sqrt (formulaDist ieee64 (lastAdded adds) q i) := by
  have hpos : 0 < ix := h.wf.layout.szIX_pos
  have hs := splitsKept_of_length h.wf hix h.fits
  have hck := h.countKept (show ix ≤ n by omega)
  exact (h.C86_items_suffice_loaded h2 hroots hck hs hcp ieee64_keyLaws angular_minKeys hf hl ⟨hq.length, angular_marginOk hq.length (by omega)⟩
    (h.finiteBelow_loaded h2 hroots hck hs hcp hf hl (margins64 h hix hn hv hq w)) hb hr).1.bruteForce ieee64_keyLaws.lawful
    (fun i v hv => vecDist_angular ieee64_mulLaws h.wf hq.length (h.added_length hv))
    (fun i hi => (arith64 hn).approx.ordinary _ ((arith64 hn).itemDist h.wf hq (mem_addedIds.1 hi) (hv i)).1)
end

section
variable {R : Rng} {sI : List Nat → List Nat} {sP : List (ieee32.V × Nat) → List (ieee32.V × Nat)} {ix n numCPU : Nat}
  {pol : BuildPolicy} {adds : List (Nat × List ieee32.V)} {trees workers : Int} {s s' : Idx (dotCfg ieee32 (bvCodec 4) R sI sP ix n)}

/-- **C129 for `float32`**, dot product, vectors of at least `3 * sizeof(TIX)` components and of moderate norm: with a budget of at least the number of items
the answer is the one by brute force, bit for bit. -/
theorem C129_dot32 (h : Session (dotCfg ieee32 (bvCodec 4) R sI sP ix n) numCPU pol adds trees workers s s')
    (hix : 3 * ix ≤ n) (hn : n ≤ 2 ^ 17) (hv : ∀ i v, lastAdded adds i = some v → Moderate32 n v) {q : List ieee32.V} (hq : Moderate32 n q)
    (hroots : s'.roots ≠ []) (w : World) {k b : Int} {fuel : Nat} {ctx ctx' : Ctx (dotCfg ieee32 (bvCodec 4) R sI sP ix n)} {ids : List Nat}
    {ds : List ieee32.V} (hb : ((addedIds adds).length : Int) ≤ (if b = -1 then k * s'.roots.length else b))
    (hr : s'.getNnsByVector fuel w q k b ctx = .ok (ids, ds, ctx')) :
    ids = bruteForce ieee32 adds q k.toNat ∧ ds = (bruteForce ieee32 adds q k.toNat).map fun i => ieee32.neg (formulaDist ieee32 (lastAdded adds) q i) := by
  have hpos : 0 < ix := h.wf.layout.szIX_pos
  have hs := splitsKept_of_length h.wf hix h.fits
  exact (h.C86_items_suffice hs ieee32_keyLaws dot_minKeys w ⟨hq.length, dot_marginOk hq.length (by omega)⟩ (h.finiteBelow hs (dotMargins32 h hix hn hv hq w))
    hroots hb hr).1.bruteForce ieee32_keyLaws.lawful (fun i v hv => vecDist_dot ieee32_mulLaws (by rw [dotArith32.blank]; exact ieee32_vanish.zero) h.wf hq.length (h.added_length hv))
    (fun i hi => (arith32 hn).approx.ordinary _ ((arith32 hn).itemDistDot dotArith32 h.wf hq (mem_addedIds.1 hi) (hv i)).1)

/-- **C129 for `float32`**, dot product, loaded indexes. -/
theorem C129_loaded_dot32 (h : Session (dotCfg ieee32 (bvCodec 4) R sI sP ix n) numCPU pol adds trees workers s s')
    (hix : 3 * ix ≤ n) (hn : n ≤ 2 ^ 17) (hv : ∀ i v, lastAdded adds i = some v → Moderate32 n v) {q : List ieee32.V} (hq : Moderate32 n q)
    (hroots : s'.roots ≠ []) (h2 : 2 ≤ slotCount adds)
    (hcp : (dotCfg ieee32 (bvCodec 4) R sI sP ix n).L.CopiesKept (slotCount adds)) {w : World} {path : String} (hf : FileOf s' w path)
    {bk : Backend} {x y : Idx (dotCfg ieee32 (bvCodec 4) R sI sP ix n)} (hl : x.load bk w path = .ok (.nil, y))
    {k b : Int} {fuel : Nat} {ctx ctx' : Ctx (dotCfg ieee32 (bvCodec 4) R sI sP ix n)} {ids : List Nat}
    {ds : List ieee32.V} (hb : ((addedIds adds).length : Int) ≤ (if b = -1 then k * y.roots.length else b))
    (hr : y.getNnsByVector fuel w q k b ctx = .ok (ids, ds, ctx')) :
    ids = bruteForce ieee32 adds q k.toNat ∧ ds = (bruteForce ieee32 adds q k.toNat).map fun i => ieee32.neg (formulaDist ieee32 (lastAdded adds) q i) := by
  have hpos : 0 < ix := h.wf.layout.szIX_pos
  have hs := splitsKept_of_length h.wf hix h.fits
  have hck := h.countKept (show ix ≤ n by omega)
  exact (h.C86_items_suffice_loaded h2 hroots hck hs hcp ieee32_keyLaws dot_minKeys hf hl ⟨hq.length, dot_marginOk hq.length (by omega)⟩
    (h.finiteBelow_loaded h2 hroots hck hs hcp hf hl (dotMargins32 h hix hn hv hq w)) hb hr).1.bruteForce ieee32_keyLaws.lawful
    (fun i v hv => vecDist_dot ieee32_mulLaws (by rw [dotArith32.blank]; exact ieee32_vanish.zero) h.wf hq.length (h.added_length hv))
    (fun i hi => (arith32 hn).approx.ordinary _ ((arith32 hn).itemDistDot dotArith32 h.wf hq (mem_addedIds.1 hi) (hv i)).1)
end

section
variable {R : Rng} {sI : List Nat → List Nat} {sP : List (ieee64.V × Nat) → List (ieee64.V × Nat)} {ix n numCPU : Nat}
  {pol : BuildPolicy} {adds : List (Nat × List ieee64.V)} {trees workers : Int} {s s' : Idx (dotCfg ieee64 (bvCodec 8) R sI sP ix n)}

/-- **C129 for `float64`**, dot product, vectors of at least `3 * sizeof(TIX)` components and of moderate norm: with a budget of at least the number of items
the answer is the one by brute force, bit for bit. -/
theorem C129_dot64 (h : Session (dotCfg ieee64 (bvCodec 8) R sI sP ix n) numCPU pol adds trees workers s s')
    (hix : 3 * ix ≤ n) (hn : n ≤ 2 ^ 46) (hv : ∀ i v, lastAdded adds i = some v → Moderate64 n v) {q : List ieee64.V} (hq : Moderate64 n q)
    (hroots : s'.roots ≠ []) (w : World) {k b : Int} {fuel : Nat} {ctx ctx' : Ctx (dotCfg ieee64 (bvCodec 8) R sI sP ix n)} {ids : List Nat}
    {ds : List ieee64.V} (hb : ((addedIds adds).length : Int) ≤ (if b = -1 then k * s'.roots.length else b))
    (hr : s'.getNnsByVector fuel w q k b ctx = .ok (ids, ds, ctx')) :
    ids = bruteForce ieee64 adds q k.toNat ∧ ds = (bruteForce ieee64 adds q k.toNat).map fun i => ieee64.neg (formulaDist ieee64 (lastAdded adds) q i) := by
  have hpos : 0 < ix := h.wf.layout.szIX_pos
  have hs := splitsKept_of_length h.wf hix h.fits
  exact (h.C86_items_suffice hs ieee64_keyLaws dot_minKeys w ⟨hq.length, dot_marginOk hq.length (by omega)⟩ (h.finiteBelow hs (dotMargins64 h hix hn hv hq w))
    hroots hb hr).1.bruteForce ieee64_keyLaws.lawful (fun i v hv => vecDist_dot ieee64_mulLaws (by rw [dotArith64.blank]; exact ieee64_vanish.zero) h.wf hq.length (h.added_length hv))
    (fun i hi => (arith64 hn).approx.ordinary _ ((arith64 hn).itemDistDot dotArith64 h.wf hq (mem_addedIds.1 hi) (hv i)).1)

/-- **C129 for `float64`**, dot product, loaded indexes. -/
theorem C129_loaded_dot64 (h : Session (dotCfg ieee64 (bvCodec 8) R sI sP ix n) numCPU pol adds trees workers s s')
    (hix : 3 * ix ≤ n) (hn : n ≤ 2 ^ 46) (hv : ∀ i v, lastAdded adds i = some v → Moderate64 n v) {q : List ieee64.V} (hq : Moderate64 n q)
    (hroots : s'.roots ≠ []) (h2 : 2 ≤ slotCount adds)
    (hcp : (dotCfg ieee64 (bvCodec 8) R sI sP ix n).L.CopiesKept (slotCount adds)) {w : World} {path : String} (hf : FileOf s' w path)
    {bk : Backend} {x y : Idx (dotCfg ieee64 (bvCodec 8) R sI sP ix n)} (hl : x.load bk w path = .ok (.nil, y))
    {k b : Int} {fuel : Nat} {ctx ctx' : Ctx (dotCfg ieee64 (bvCodec 8) R sI sP ix n)} {ids : List Nat}
    {ds : List ieee64.V} (hb : ((addedIds adds).length : Int) ≤ (if b = -1 then k * y.roots.length else b))
    (hr : y.getNnsByVector fuel w q k b ctx = .ok (ids, ds, ctx')) :
    ids = bruteForce ieee64 adds q k.toNat ∧ ds = (bruteForce ieee64 adds q k.toNat).map fun i => ieee64.neg (formulaDist ieee64 (lastAdded adds) q i) := by
  have hpos : 0 < ix := h.wf.layout.szIX_pos
  have hs := splitsKept_of_length h.wf hix h.fits
  have hck := h.countKept (show ix ≤ n by omega)
  exact (h.C86_items_suffice_loaded h2 hroots hck hs hcp ieee64_keyLaws dot_minKeys hf hl ⟨hq.length, dot_marginOk hq.length (by omega)⟩
    (h.finiteBelow_loaded h2 hroots hck hs hcp hf hl (dotMargins64 h hix hn hv hq w)) hb hr).1.bruteForce ieee64_keyLaws.lawful
    (fun i v hv => vecDist_dot ieee64_mulLaws (by rw [dotArith64.blank]; exact ieee64_vanish.zero) h.wf hq.length (h.added_length hv))
    (fun i hi => (arith64 hn).approx.ordinary _ ((arith64 hn).itemDistDot dotArith64 h.wf hq (mem_addedIds.1 hi) (hv i)).1)
end

/-- The order and number of `AddItem` calls leave no trace. -/
theorem bruteForce_congr {N : Num} {adds adds' : List (Nat × List N.V)} (h : ∀ i, lastAdded adds i = lastAdded adds' i) (q : List N.V) (k : Nat) :
    bruteForce N adds q k = bruteForce N adds' q k := by
  unfold bruteForce
  rw [addedIds_congr h, funext h]

/-- **C129**: an angular index and a dot product index over the same items, of any two index types, by any two generators, with any numbers of trees and workers, return
the same items in the same order. -/
theorem C129_metrics {R R' : Rng} {sI sI' : List Nat → List Nat} {sP sP' : List (ieee32.V × Nat) → List (ieee32.V × Nat)} {ix ix' n numCPU numCPU' : Nat}
    {pol pol' : BuildPolicy} {adds adds' : List (Nat × List ieee32.V)} {trees trees' workers workers' : Int}
    {s s' : Idx (angularCfg ieee32 (bvCodec 4) R sI sP ix n)} {t t' : Idx (dotCfg ieee32 (bvCodec 4) R' sI' sP' ix' n)}
    (h : Session (angularCfg ieee32 (bvCodec 4) R sI sP ix n) numCPU pol adds trees workers s s')
    (g : Session (dotCfg ieee32 (bvCodec 4) R' sI' sP' ix' n) numCPU' pol' adds' trees' workers' t t') (hsame : ∀ i, lastAdded adds i = lastAdded adds' i)
    (hix : 3 * ix ≤ n) (hix' : 3 * ix' ≤ n) (hn : n ≤ 2 ^ 17) (hv : ∀ i v, lastAdded adds i = some v → Moderate32 n v) {q : List ieee32.V}
    (hq : Moderate32 n q) (hroots : s'.roots ≠ []) (hroots' : t'.roots ≠ []) (w w' : World) {k b b' : Int} {fuel fuel' : Nat}
    {ctx o : Ctx (angularCfg ieee32 (bvCodec 4) R sI sP ix n)} {ctx' o' : Ctx (dotCfg ieee32 (bvCodec 4) R' sI' sP' ix' n)} {ids ids' : List Nat}
    {ds ds' : List ieee32.V} (hb : ((addedIds adds).length : Int) ≤ (if b = -1 then k * s'.roots.length else b))
    (hb' : ((addedIds adds).length : Int) ≤ (if b' = -1 then k * t'.roots.length else b'))
    (hr : s'.getNnsByVector fuel w q k b ctx = .ok (ids, ds, o)) (hr' : t'.getNnsByVector fuel' w' q k b' ctx' = .ok (ids', ds', o')) :
    ids = ids' ∧ ∀ i ∈ ids, ∃ d, (i, ieee32.sqrt d) ∈ ids.zip ds ∧ (i, ieee32.neg d) ∈ ids'.zip ds' := by
  obtain ⟨e1, e2⟩ := C129_float32 h hix hn hv hq hroots w hb hr
  obtain ⟨f1, f2⟩ := C129_dot32 g hix' hn (fun i v hi => hv i v (hsame i ▸ hi)) hq hroots' w' (by rw [← addedIds_congr hsame]; exact hb') hr'
  rw [← bruteForce_congr hsame, ← e1] at f1
  subst f1
  refine ⟨rfl, fun i hi => ⟨formulaDist ieee32 (lastAdded adds) q i, ?_, ?_⟩⟩
  · rw [e2, ← e1]
    exact zip_map_mem hi
  · rw [f2, ← bruteForce_congr hsame, ← e1, ← funext hsame]
    exact zip_map_mem hi

/-- Twenty items of length 12 in three trees of an angular index and in two trees of a dot product index: the hypotheses of the theorems above hold. -/
example : ∃ s s' t t', Session (angular32 4 12) 1 .single (longAdds 20) 3 1 s s' ∧ Session (dot32 4 12) 1 .single (longAdds 20) 2 1 t t' ∧
    3 * 4 ≤ 12 ∧ (∀ i v, lastAdded (longAdds 20) i = some v → Moderate32 12 v) ∧ Moderate32 12 query12 ∧
    s'.roots.length = 3 ∧ t'.roots.length = 2 := by
  obtain ⟨s, s', -, h, h1, -⟩ := C76_build (c := angular32 4 12) (.angular32 (by decide) (by decide)) 1 (longAdds 20) (legalAdds_of (by decide +kernel)) (Kiss32.new 0) 0 3 1
    (by decide +kernel)
  obtain ⟨t, t', -, g, g1, -⟩ := C76_build (c := dot32 4 12) (.dot32 (by decide) (by decide)) 1 (longAdds 20) (legalAdds_of (by decide +kernel)) (Kiss32.new 7) 0 2 1
    (by decide +kernel)
  exact ⟨s, s', t, t', h, g, by decide, longAdds_moderate,
    moderate32_of_bits (by decide) (by decide) (by decide +kernel) ⟨0, by decide +kernel⟩, h1 (by decide), g1 (by decide)⟩

end Annoy
