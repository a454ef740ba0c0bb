import Verif.Model.Conc
import Verif.Proof.BuildAll
import Batteries.Data.List.Perm
/-!
Safety of `Build` with several workers: what each worker may rely on and what it guarantees.

`Safe P p h g b` says: a worker with program `p`, holding the locks `h`, with ghost state `g` (the nodes it
owns, what it knows about the shared fields, the number of nodes it may still take) and seeing the bytes `b`
(item slots and its own nodes; zero elsewhere) only does what the other workers tolerate, whatever they do.
-/
namespace Annoy
namespace Conc
variable {c : Cfg}

/-- Fixed parameters: item slots, bound for the node count, the items, whether panics are excluded, and the
shares of the workers. -/
structure Par where
  n : Nat
  B : Nat
  live : List Nat
  tot : Prop
  sh : List Int

/-- Ghost state of one worker. -/
structure G where
  /-- nodes it may still take -/
  κ : Nat
  /-- most nodes it may ever have in hand -/
  M : Nat
  /-- its share of trees -/
  trees : Int
  /-- nodes it owns -/
  O : List Nat
  /-- what it knows about `_n_nodes`, `_nodes_size`, `_roots` while it holds the lock -/
  kn : Option Nat
  ks : Option Nat
  kr : Option (List Nat)
  /-- a node count it has seen -/
  seen : Nat
  /-- the roots it has published -/
  fin : Option (List Nat)

abbrev hF : Held := {}
abbrev hN : Held := { nn := true }
abbrev hP : Held := { nn := true, wr := .pending }
abbrev hW : Held := { nn := true, wr := .held }
abbrev hM : Held := { nn := true, wr := .held, moving := true }
abbrev hR : Held := { rd := true }
abbrev hT : Held := { rt := true }

/-- What a worker has produced when it is done. -/
structure Post (c : Cfg) (P : Par) (g : G) (b : Bytes) (rs : List Nat) : Prop where
  sub : ∀ r ∈ rs, r ∈ g.O
  top : ∀ x ∈ g.O, ∃ r ∈ rs, x ≤ r
  nodup : rs.Nodup
  count : g.trees ≠ -1 → rs.length = g.trees.toNat
  full : g.trees = -1 → 2 * P.n ≤ g.seen
  counted : ∀ r ∈ rs, c.L.RootCount P.n (ndAt c.L b r)
  downward : ∀ x ∈ g.O, Downward c.L b P.n x
  forest : ∀ D, (∀ x ∈ g.O, x < D) → (c.L.Deep D ∨ P.n ≤ c.L.K) → ∃ ts : List Tree,
    ts.map Tree.root = rs ∧ (∀ t ∈ ts, SidedRoot c b P.n P.live t) ∧ (ts.flatMap Tree.inner).Perm g.O

def Safe (P : Par) : Prog c → Held → G → Bytes → Prop
  | .done, h, g, b => h = hF ∧ ∃ rs, g.fin = some rs ∧ Post c P g b rs
  | .fail _, _, _, _ => ¬ P.tot
  | .lockN k, h, g, b => h = hF ∧ Safe P k hN { g with kn := none, ks := none } b
  | .unlockN k, h, g, b => h = hN ∧ Safe P k hF { g with kn := none, ks := none } b
  | .rlock k, h, g, b => h = hF ∧ Safe P k hR g b
  | .runlock k, h, g, b => h = hR ∧ Safe P k hF g b
  | .wlock k, h, g, b => (h = hN ∨ h = hP) ∧ Safe P k hW g b
  | .wunlock k, h, g, b => h = hW ∧ Safe P k hN g b
  | .lockR k, h, g, b => h = hF ∧ Safe P k hT { g with kr := none } b
  | .unlockR k, h, g, b => h = hT ∧ Safe P k hF { g with kr := none } b
  | .readN k, h, g, b => (h = hN ∨ h = hW) ∧ ∀ v, (∀ v', g.kn = some v' → v = v') → P.n ≤ v →
      v + g.κ ≤ P.B → (∀ x ∈ g.O, x < v) →
      ∃ κ, (κ ≤ g.κ ∨ (g.trees = -1 ∧ v < 2 * P.n ∧ κ ≤ g.M)) ∧
        Safe P (k v) h { g with kn := some v, κ := κ, seen := v } b
  | .setN w k, h, g, b => h = hN ∧ ∃ v z, g.kn = some v ∧ g.ks = some z ∧ w = v + 1 ∧ v < z ∧ 0 < g.κ ∧
      ((∀ x ∈ g.O, x < v) → Safe P k h { g with kn := some (v + 1), κ := g.κ - 1, O := v :: g.O } b)
  | .readSize k, h, g, b => (h = hN ∨ h = hW) ∧ ∀ z, (∀ z', g.ks = some z' → z = z') →
      (∀ v, g.kn = some v → v ≤ z) → z * c.L.nodeSize < c.L.range →
      Safe P (k z) h { g with ks := some z } b
  | .grow z k, h, g, b => (h = hW ∨ h = hM) ∧ z * c.L.nodeSize < c.L.range ∧
      (∃ z0, g.ks = some z0 ∧ z0 ≤ z) ∧ Safe P k hW { g with ks := some z } b
  | .read f k, h, g, b => h = hR ∧ ∀ (m : Block) r, P.n * c.L.nodeSize ≤ m.size →
      P.n * c.L.nodeSize < c.L.range →
      (∀ x, x < P.n * c.L.nodeSize → m.get x = b x) →
      f m r = f ⟨P.n * c.L.nodeSize, b⟩ r ∧ (∀ e, f m r = .error e → ¬ P.tot) ∧ ∀ x r', f m r = .ok (x, r') → Safe P (k x) h g b
  | .write i f k, h, g, b => h = hR ∧ i ∈ g.O ∧
      (∀ d a x, (x < a ∨ a + c.L.nodeSize ≤ x) → f d a x = d x) ∧
      (∀ d d' a, (∀ j, j < c.L.nodeSize → d (a + j) = d' (a + j)) →
        ∀ j, j < c.L.nodeSize → f d a (a + j) = f d' a (a + j)) ∧
      Safe P k h g (f b (i * c.L.nodeSize))
  | .rand ids k, h, g, b => h = hF ∧ (2 ≤ ids.length ∧ ids.length < c.L.range) ∧ ∀ l rt, (l ++ rt).Perm ids → c.le99 l.length rt.length = true →
      Safe P (k l rt) h g b
  | .readRoots k, h, g, b => h = hT ∧ ∀ rs, Safe P (k rs) h { g with kr := some rs } b
  | .setRoots rs k, h, g, b => h = hT ∧ k = .unlockR .done ∧ ∃ old new, g.kr = some old ∧ rs = old ++ new ∧ g.fin = none ∧
      Safe P k h { g with kr := none, fin := some new } b

/-! ### the building blocks of a worker are safe -/

/-- Nodes outside `O` and the item slots are zero. -/
def ZeroOut (c : Cfg) (n : Nat) (O : List Nat) (b : Bytes) : Prop :=
  ∀ i, n ≤ i → i ∉ O → ∀ j, j < c.L.nodeSize → b (i * c.L.nodeSize + j) = 0

/-- The unchanged part of the ghost state. -/
structure Kept (g g' : G) : Prop where
  M : g'.M = g.M
  trees : g'.trees = g.trees
  fin : g'.fin = g.fin

theorem Kept.refl (g : G) : Kept g g := ⟨rfl, rfl, rfl⟩
theorem Kept.trans {g g' g'' : G} (h : Kept g g') (h' : Kept g' g'') : Kept g g'' :=
  ⟨h'.M.trans h.M, h'.trees.trans h.trees, h'.fin.trans h.fin⟩

theorem takeNode_safe (hL : c.L.Ok c.C.sz) (P : Par) (hB : c.L.Fits P.B) (k : Nat → Prog c) (g : G)
    (b : Bytes) (hκ : 0 < g.κ)
    (hk : ∀ v g', P.n ≤ v → v < P.B → (∀ x ∈ g.O, x < v) → Kept g g' → g'.κ + 1 = g.κ →
      g'.O = v :: g.O → Safe P (k v) hF g' b) :
    Safe P (Prog.takeNode k) hF g b := by
  have hp := hL.nodeSize_pos
  unfold Prog.takeNode
  dsimp only [Safe]
  refine ⟨rfl, Or.inl rfl, ?_⟩
  intro v _ hnv hvκ hO
  refine ⟨g.κ, Or.inl le_rfl, Or.inl rfl, ?_⟩
  intro z _ hvz hz
  have hfit : c.L.Fits (v + 1) := hB.mono (by omega)
  have hw : c.L.wrap (v + 1) = v + 1 := c.L.wrap_eq (hfit.lt_range hp)
  have hvz' : v ≤ z := hvz v rfl
  -- the rest of the critical section, entered with a known size above `v`
  have rest : ∀ z', v < z' → Safe P
      (Prog.readN fun item => Prog.readN fun v => Prog.setN (c.L.wrap (v + 1)) (Prog.unlockN (k item)))
      hN { g with kn := some v, κ := g.κ, seen := v, ks := some z' } b := by
    intro z' hz'
    dsimp only [Safe]
    refine ⟨Or.inl rfl, ?_⟩
    intro v1 hv1 _ _ _
    have : v1 = v := hv1 v rfl
    subst this
    refine ⟨g.κ, Or.inl le_rfl, Or.inl rfl, ?_⟩
    intro v2 hv2 _ _ _
    have : v2 = v1 := hv2 v1 rfl
    subst this
    refine ⟨g.κ, Or.inl le_rfl, rfl, v2, z', rfl, rfl, hw, hz', hκ, fun hO => ⟨rfl, ?_⟩⟩
    exact hk v2 _ hnv (by omega) hO ⟨rfl, rfl, rfl⟩ (by dsimp only; omega) rfl
  rw [hw]
  by_cases hgt : v + 1 > z
  · rw [if_pos hgt]
    dsimp only [Safe]
    refine ⟨Or.inl rfl, Or.inr rfl, ?_⟩
    intro z' hz' _ _
    have : z' = z := hz' z rfl
    subst this
    have hzv : z' = v := by omega
    have hw2 : c.L.wrap (z' + 1) = z' + 1 := by rw [hzv]; exact hw
    have h32 : (z' + 1) * 3 / 2 * c.L.nodeSize < c.L.range := by
      have := hfit.grow
      rw [hzv]; rw [Nat.mul_comm] at this
      rw [Nat.mul_comm, Nat.mul_comm (v + 1) 3]
      exact this
    have hw3 : c.L.wrap ((z' + 1) * 3 / 2) = (z' + 1) * 3 / 2 := by
      apply c.L.wrap_eq
      have : (z' + 1) * 3 / 2 * 1 ≤ (z' + 1) * 3 / 2 * c.L.nodeSize := Nat.mul_le_mul_left _ hp
      omega
    rw [hw2, hw3]
    have hmax : max (v + 1) ((z' + 1) * 3 / 2) * c.L.nodeSize < c.L.range := by
      rcases le_total (v + 1) ((z' + 1) * 3 / 2) with h | h
      · rw [max_eq_right h]; exact h32
      · rw [max_eq_left h]; exact hfit.mul_lt
    refine ⟨Or.inl rfl, hmax, ⟨z', rfl, ?_⟩, rfl, ?_⟩
    · have := le_max_left (v + 1) ((z' + 1) * 3 / 2); omega
    · exact rest _ (by have := le_max_left (v + 1) ((z' + 1) * 3 / 2); omega)
  · rw [if_neg hgt]
    exact rest z (by omega)

theorem write_local (b b' : Bytes) (a o n : Nat) (l : List Byte)
    (h : ∀ j, j < n → b (a + j) = b' (a + j)) (j : Nat) (hj : j < n) :
    writeBytes b (a + o) l (a + j) = writeBytes b' (a + o) l (a + j) := by
  unfold writeBytes
  dsimp only
  split
  · rfl
  · exact h j hj

/-- Taking a node and writing it. -/
theorem zeroOut_write {n : Nat} {O : List Nat} {b b' : Bytes} {v : Nat} (h : ZeroOut c n O b)
    (hf : ∀ x, (x < v * c.L.nodeSize ∨ v * c.L.nodeSize + c.L.nodeSize ≤ x) → b' x = b x) :
    ZeroOut c n (v :: O) b' := by
  intro i hi hiO j hj
  have hne : i ≠ v := fun h => hiO (by simp [h])
  rw [hf _ (Idx.node_ne hne hj)]
  exact h i hi (fun hm => hiO (by simp [hm])) j hj

theorem sameNode_write {b b' : Bytes} {v i : Nat} (hne : i ≠ v)
    (hf : ∀ x, (x < v * c.L.nodeSize ∨ v * c.L.nodeSize + c.L.nodeSize ≤ x) → b' x = b x) :
    SameNode c.L b b' i := by
  intro j hj
  rw [hf _ (Idx.node_ne hne hj)]

theorem bucket_safe (hc : c.WF) (P : Par) (hB : c.L.Fits P.B) (ids : List Nat) (isRoot : Bool)
    (k : Nat → Prog c) (g : G) (b : Bytes) (hκ : 0 < g.κ) (hK : ids.length ≤ c.L.K)
    (hk : ∀ v g', P.n ≤ v → v < P.B → (∀ x ∈ g.O, x < v) → Kept g g' → g'.κ + 1 = g.κ →
      g'.O = v :: g.O → Safe P (k v) hF g'
        (Node.setChildren c.L (Node.setNDesc c.L b (v * c.L.nodeSize)
          (if isRoot then P.n else ids.length)) (v * c.L.nodeSize) ids)) :
    Safe P (Prog.bucket P.n ids isRoot k) hF g b := by
  have hL := hc.layout
  have h3 := hL.three_le
  have h1 : ids.length * c.L.szIX ≤ c.L.K * c.L.szIX := Nat.mul_le_mul_right _ hK
  have hKf := hL.K_fits
  unfold Prog.bucket
  apply takeNode_safe hL P hB _ g b hκ
  intro v g' hv1 hv2 hO hk1 hk2 hk3
  have hvO : v ∈ g'.O := by rw [hk3]; simp
  have S := hk v g' hv1 hv2 hO hk1 hk2 hk3
  dsimp only [Safe]
  refine ⟨rfl, rfl, hvO, ?_, ?_, ?_⟩
  · intro d a x hx
    exact Node.setNDesc_frame _ _ _ _ (by omega)
  · intro d d' a hd j hj
    exact write_local d d' a 0 c.L.nodeSize _ hd j hj
  · split
    · dsimp only [Safe]
      refine ⟨rfl, hvO, ?_, ?_, rfl, S⟩
      · intro d a x hx
        exact Node.setChildren_frame _ _ _ _ (by omega)
      · intro d d' a hd j hj
        exact write_local d d' a c.L.szIX c.L.nodeSize _ hd j hj
    · next h0 =>
      have : ids = [] := List.length_eq_zero_iff.1 (by omega)
      subst this
      dsimp only [Safe]
      refine ⟨rfl, ?_⟩
      rw [Node.setChildren_nil] at S
      exact S

theorem place_safe (hc : c.WF) (P : Par) (hB : c.L.Fits P.B) (m : Bytes)
    (k : Nat → Prog c) (g : G) (b : Bytes) (hκ : 0 < g.κ)
    (hk : ∀ v g', P.n ≤ v → v < P.B → (∀ x ∈ g.O, x < v) → Kept g g' → g'.κ + 1 = g.κ →
      g'.O = v :: g.O → Safe P (k v) hF g' (Node.copyNode b (v * c.L.nodeSize) m 0 c.L.f)) :
    Safe P (Prog.place m k) hF g b := by
  have hL := hc.layout
  have hf := hL.f_le
  unfold Prog.place
  apply takeNode_safe hL P hB _ g b hκ
  intro v g' hv1 hv2 hO hk1 hk2 hk3
  dsimp only [Safe]
  refine ⟨rfl, rfl, by rw [hk3]; simp, ?_, ?_, rfl, hk v g' hv1 hv2 hO hk1 hk2 hk3⟩
  · intro d a x hx
    exact Node.copyNode_frame _ _ _ _ _ _ (by omega)
  · intro d d' a hd j hj
    exact write_local d d' a 0 c.L.nodeSize _ hd j hj

/-- The contract that keeps workers from panicking: hyperplanes can be made and tested. -/
structure Total (c : Cfg) : Prop where
  createSplit : ∀ b addrs r m e, 2 ≤ addrs.length → c.D.createSplit b addrs r m ≠ .error e
  side : ∀ m v r e, v.length = c.L.f → c.D.side m v r ≠ .error e

theorem getNode_item {n j : Nat} {m : Block} (hj : j < n) (hsz : n * c.L.nodeSize ≤ m.size) (hrg : n * c.L.nodeSize < c.L.range) :
    getNode c.L m j = .ok (j * c.L.nodeSize) := by
  have hle : (j + 1) * c.L.nodeSize ≤ n * c.L.nodeSize := Nat.mul_le_mul_right _ hj
  rw [Nat.add_mul] at hle
  have ha : c.L.addr j = j * c.L.nodeSize := by
    by_cases h0 : c.L.nodeSize = 0
    · simp [Layout.addr, Layout.wrap, h0]
    · exact c.L.addr_eq (by omega)
  rw [Idx.getNode_eq (by rw [ha]; omega), ha]

theorem sides_safe (hL : c.L.Ok c.C.sz) (P : Par) (hT : P.tot → Total c) (m : Bytes) (g : G) (b : Bytes) (ids : List Nat) :
    ∀ (k : List Nat → List Nat → Prog c), (∀ x ∈ ids, x < P.n) →
    (∀ l rt, (l ++ rt).Perm ids → Divides c b m l rt → Safe P (k l rt) hR g b) →
    Safe P (Prog.sides m ids k) hR g b := by
  induction ids with
  | nil => intro k _ hk; exact hk [] [] (by simp) ⟨by simp, by simp⟩
  | cons j js ih =>
    intro k hj hk
    unfold Prog.sides
    dsimp only [Safe]
    refine ⟨rfl, ?_⟩
    intro mem r hsz hrg hag
    have hj1 := hj j (by simp)
    have hvec : Node.vec c.L c.C mem.get (j * c.L.nodeSize) = Node.vec c.L c.C b (j * c.L.nodeSize) := by
      apply SameNode.vec hL
      intro q hq
      exact hag _ (Idx.node_lt hj1 hq)
    have hget : getNode c.L mem j = .ok (j * c.L.nodeSize) := getNode_item hj1 hsz hrg
    have hget' : getNode c.L ⟨P.n * c.L.nodeSize, b⟩ j = .ok (j * c.L.nodeSize) := getNode_item hj1 le_rfl hrg
    refine ⟨?_, ?_, ?_⟩
    · unfold Idx.sideOfItem
      rw [hget, hget']
      simp only [bind, Except.bind]
      rw [hvec]
    · intro e he htot
      unfold Idx.sideOfItem at he
      rw [hget] at he
      exact (hT htot).side _ _ _ _ (by simp) he
    · intro sd r' hsd
      have hsent := Idx.sideOfItem_sent hsd hget hvec
      apply ih _ (fun x hx => hj x (by simp [hx]))
      intro l rt hp hd
      cases sd with
      | left =>
        refine hk _ _ (by simpa using hp) ⟨fun i hi => ?_, hd.2⟩
        rcases List.mem_cons.1 hi with rfl | hi
        · exact hsent
        · exact hd.1 i hi
      | right =>
        refine hk _ _ (List.perm_middle.trans (hp.cons j)) ⟨hd.1, fun i hi => ?_⟩
        rcases List.mem_cons.1 hi with rfl | hi
        · exact hsent
        · exact hd.2 i hi

theorem attempts_safe (hc : c.WF) (P : Par) (hT : P.tot → Total c) (ids : List Nat) (g : G) (b : Bytes)
    (k : Bytes → List Nat → List Nat → Prog c) (hids : ∀ x ∈ ids, x < P.n) (h2 : 2 ≤ ids.length)
    (hk : ∀ m l rt, (l ++ rt).Perm ids → LastTry c b P.n ids m l rt → Safe P (k m l rt) hR g b)
    (a : Nat) :
    ∀ (j : Nat) (m : Bytes) (l rt : List Nat), j + (a + 1) = 3 → Spoilt c b P.n ids j m →
    Safe P (Prog.attempts (ids.map fun j => j * c.L.nodeSize) ids (a + 1) m l rt k) hR g b := by
  induction a with
  | zero =>
    intro j m l rt hj hm
    unfold Prog.attempts
    dsimp only [Safe]
    refine ⟨rfl, ?_⟩
    intro mem r _ _ hag
    refine ⟨?_, fun e he htot => (hT htot).createSplit _ _ _ _ _ (by simpa using h2) he, ?_⟩
    · apply hc.createSplit
      intro a ha j hj
      obtain ⟨i, hi, rfl⟩ := List.mem_map.1 ha
      exact hag _ (Idx.node_lt (hids i hi) hj)
    intro m' r' hm'
    apply sides_safe hc.layout P hT _ _ _ _ _ hids
    intro l' rt' hp hd
    have hlast : LastTry c b P.n ids m' l' rt' := ⟨j, m, by omega, hm, ⟨mem.get, r, r', hag, hm'⟩, hp, hd, Or.inr (by omega)⟩
    split
    · exact hk _ _ _ hp hlast
    · unfold Prog.attempts
      exact hk _ _ _ hp hlast
  | succ a ih =>
    intro j m l rt hj hm
    rw [Prog.attempts]
    dsimp only [Safe]
    refine ⟨rfl, ?_⟩
    intro mem r _ _ hag
    refine ⟨?_, fun e he htot => (hT htot).createSplit _ _ _ _ _ (by simpa using h2) he, ?_⟩
    · apply hc.createSplit
      intro a ha j hj
      obtain ⟨i, hi, rfl⟩ := List.mem_map.1 ha
      exact hag _ (Idx.node_lt (hids i hi) hj)
    intro m' r' hm'
    apply sides_safe hc.layout P hT _ _ _ _ _ hids
    intro l' rt' hp hd
    split
    · next h95 => exact hk _ _ _ hp ⟨j, m, by omega, hm, ⟨mem.get, r, r', hag, hm'⟩, hp, hd, Or.inl h95⟩
    · next h95 => exact ih (j + 1) _ _ _ (by omega) (.more hm ⟨mem.get, r, r', hag, hm'⟩ hp hd (by simpa using h95))

theorem choose_safe (hc : c.WF) (P : Par) (hT : P.tot → Total c) (ids : List Nat) (g : G) (b : Bytes)
    (k : Bytes → List Nat → List Nat → Prog c) (hids : ∀ x ∈ ids, x < P.n) (h2 : 2 ≤ ids.length)
    (hlen : ids.length ≤ P.n)
    (hk : ∀ m l rt, (l ++ rt).Perm ids → l ≠ [] → rt ≠ [] → DivisionBy c b P.n m l rt →
      Safe P (k m l rt) hF g b) :
    Safe P (Prog.choose ids k) hF g b := by
  unfold Prog.choose
  dsimp only [Safe]
  refine ⟨rfl, rfl, ?_⟩
  intro mem r hsz hrg _
  have hget : ∀ mem : Block, P.n * c.L.nodeSize ≤ mem.size → ids.mapM (getNode c.L mem) = .ok (ids.map fun j => j * c.L.nodeSize) :=
    fun mem hsz => mapM_ok fun j hj => getNode_item (hids j hj) hsz hrg
  rw [hget mem hsz, hget ⟨P.n * c.L.nodeSize, b⟩ le_rfl]
  refine ⟨rfl, fun e he => (by cases he), ?_⟩
  intro addrs r' he
  cases he
  apply attempts_safe hc P hT _ _ _ _ hids h2 _ 2 0 _ _ _ rfl .none
  intro m l rt hp hlast
  dsimp only [Safe]
  refine ⟨rfl, ?_⟩
  split
  · next h99 =>
    obtain ⟨h1, h3⟩ := hc.le99 _ _ h99
    exact hk _ _ _ hp (List.length_pos_iff.1 h1) (List.length_pos_iff.1 h3)
      ⟨h99, ids, hp.symm, Or.inl hlast⟩
  · next hno =>
    dsimp only [Safe]
    refine ⟨rfl, ⟨h2, ?_⟩, ?_⟩
    · have : P.n * 1 ≤ P.n * c.L.nodeSize := Nat.mul_le_mul_left _ hc.layout.nodeSize_pos
      omega
    intro l' rt' hp h99
    obtain ⟨h1, h3⟩ := hc.le99 _ _ h99
    exact hk _ _ _ hp (List.length_pos_iff.1 h1) (List.length_pos_iff.1 h3)
      ⟨h99, ids, hp.symm, Or.inr ⟨m, l, rt, hlast, by simpa using hno, rfl⟩⟩

/-- What `makeTree` did: it took the nodes `O'` and wrote only those. -/
structure Made (c : Cfg) (P : Par) (g g' : G) (b b' : Bytes) (ids : List Nat) (isRoot : Bool) (root : Nat)
    (O' : List Nat) : Prop where
  kept : Kept g g'
  O : g'.O = O' ++ g.O
  κ : g'.κ + O'.length = g.κ
  cap : O'.length ≤ Idx.cap ids.length
  ge : ∀ x ∈ O', P.n ≤ x ∧ x < P.B
  fresh : ∀ x ∈ O', x ∉ g.O
  zero : ZeroOut c P.n g'.O b'
  frame : ∀ i, i < P.n ∨ i ∈ g.O → SameNode c.L b b' i
  rootAt : root < P.n ∨ root ∈ O'
  top : isRoot = true → root ∈ O' ∧ ∀ x ∈ O', x ≤ root
  counted : isRoot = true → c.L.RootCount P.n (ndAt c.L b' root)
  downward : ∀ x ∈ O', Downward c.L b' P.n x
  sub : isRoot = false → ∀ D, (∀ x ∈ O', x < D) → (c.L.Deep D ∨ ids.length ≤ c.L.K) →
    ∃ t : Tree, t.root = root ∧ SidedTree c b' P.n t ∧ t.items.Perm ids ∧ t.inner.Perm O'
  tree : isRoot = true → ∀ D, (∀ x ∈ O', x < D) → (c.L.Deep D ∨ P.n ≤ c.L.K) →
    ∃ t : Tree, t.root = root ∧ SidedRoot c b' P.n ids t ∧ t.inner.Perm O'

theorem K_lt (hL : c.L.Ok c.C.sz) : c.L.K < c.L.range := by
  have h5 := hL.K_fits
  have h6 := hL.size_lt
  have h7 := hL.szIX_pos
  have h8 : c.L.K * 1 ≤ c.L.K * c.L.szIX := Nat.mul_le_mul_left _ h7
  omega

theorem made_bucket (hc : c.WF) (P : Par) (hB : c.L.Fits P.B) (ids : List Nat) (isRoot : Bool) (g g' : G)
    (b : Bytes) (v : Nat) (hz : ZeroOut c P.n g.O b) (hlen : ids.length ≤ P.n)
    (hne : isRoot = false → 2 ≤ ids.length) (hitems : ∀ x ∈ ids, IsItem c.L b P.n x)
    (hlone : isRoot = true → ids.length = 1 → c.L.K < P.n → ndAt c.L b 0 = 0)
    (hK : ids.length ≤ c.L.K) (hb2 : isRoot = false ∨ P.n ≤ c.L.K ∨ ids.length = 1)
    (hv1 : P.n ≤ v) (hv2 : v < P.B) (hO : ∀ x ∈ g.O, x < v) (hk1 : Kept g g') (hk2 : g'.κ + 1 = g.κ)
    (hk3 : g'.O = v :: g.O) :
    Made c P g g' b (Node.setChildren c.L (Node.setNDesc c.L b (v * c.L.nodeSize)
          (if isRoot then P.n else ids.length)) (v * c.L.nodeSize) ids) ids isRoot v [v] := by
  have hL := hc.layout
  have hp := hL.nodeSize_pos
  have hKge := hL.K_ge
  have hKr := K_lt hL
  have hBr := hB.lt_range hp
  set b' := Node.setChildren c.L (Node.setNDesc c.L b (v * c.L.nodeSize)
          (if isRoot then P.n else ids.length)) (v * c.L.nodeSize) ids with hb'
  have hvO : v ∉ g.O := fun h => by have := hO v h; omega
  have hfr : ∀ x, (x < v * c.L.nodeSize ∨ v * c.L.nodeSize + c.L.nodeSize ≤ x) → b' x = b x :=
    fun x hx => Node.bucket_frame hL _ _ _ _ hK x hx
  have hfrN : ∀ i, i < P.n ∨ i ∈ g.O → SameNode c.L b b' i := by
    intro i hi
    apply sameNode_write _ hfr
    rintro rfl
    rcases hi with h | h
    · omega
    · exact hvO h
  have hndr : (if isRoot then P.n else ids.length) < c.L.range := by split <;> omega
  have hnd : ndAt c.L b' v = if isRoot then P.n else ids.length := Node.bucket_nDesc _ _ _ _ hndr
  have hz0 : ∀ j, j < c.L.nodeSize → b (v * c.L.nodeSize + j) = 0 := hz v hv1 hvO
  have hidr : ∀ x ∈ ids, x < c.L.range := fun x hx => by have := (hitems x hx).1; omega
  have hch : ∀ k, k < c.L.K → childAt c.L b' v k = ids.getD k 0 :=
    fun k hk => Node.bucket_child hL _ _ _ _ hz0 hidr k hk
  have hchs := Node.bucket_children hL b (v * c.L.nodeSize) (if isRoot then P.n else ids.length) ids
    hz0 hidr hndr
  have hI : ∀ x, IsItem c.L b P.n x → IsItem c.L b' P.n x := by
    intro x hx
    exact ⟨hx.1, by rw [← (hfrN x (Or.inl hx.1)).nd hL]; exact hx.2⟩
  refine ⟨hk1, by rw [hk3]; rfl, by simpa using hk2, ?_, ?_, ?_, ?_, hfrN, Or.inr (by simp), ?_, fun hr => Or.inl (by rw [hnd, if_pos hr]), ?_, ?_, ?_⟩
  · simp only [List.length_singleton]; exact le_max_left _ _
  · intro x hx; simp only [List.mem_singleton] at hx; subst hx; exact ⟨hv1, hv2⟩
  · intro x hx; simp only [List.mem_singleton] at hx; subst hx; exact hvO
  · rw [hk3]; exact zeroOut_write hz hfr
  · intro _; simp
  · intro x hx
    simp only [List.mem_singleton] at hx
    subst hx
    refine Node.bucket_downward hL hnd hch (fun x hx => (hitems x hx).1) ?_ hv1 ?_
    · intro h0
      split at h0 <;> omega
    · intro h0
      apply Node.bucket_blank _ _ _ _ _ hz0
      split at h0
      · next hr =>
        rcases hb2 with hb2 | hb2 | hb2
        · rw [hr] at hb2; cases hb2
        · omega
        · omega
      · omega
  · intro hr D _ _
    subst hr
    simp only [Bool.false_eq_true, if_false, Nat.sub_self, List.replicate_zero, List.append_nil] at hnd hchs
    refine ⟨.bucket v ids, rfl, ⟨⟨hv1, hne rfl, hK, hnd, ?_, fun x hx => hI x (hitems x hx)⟩, trivial⟩,
      List.Perm.refl _, List.Perm.refl _⟩
    exact hchs le_rfl hK
  · intro hr D _ hor
    subst hr
    simp only [if_true] at hnd hchs
    by_cases hnK : P.n ≤ c.L.K
    · exact ⟨.bucket v _, rfl, ⟨⟨hv1, hnK, hnd, hchs hlen hnK, ids, List.Perm.refl _, rfl⟩, trivial⟩,
        List.Perm.refl _⟩
    · have h1 : ids.length = 1 := by
        rcases hb2 with hb2 | hb2 | hb2
        · cases hb2
        · omega
        · exact hb2
      obtain ⟨j, hj⟩ := List.length_eq_one_iff.1 h1
      have h0 := hlone rfl h1 (by omega)
      subst hj
      have hj' := hitems j (by simp)
      refine ⟨.split v (.item j) (.hole 0), rfl, ⟨⟨hv1, ?_, ?_, by omega, hnd, ?_, ?_,
        Or.inr ⟨j, rfl, hI j hj', rfl, rfl, ?_⟩⟩, Or.inr ⟨⟨j, 0, rfl, rfl⟩, ?_⟩⟩, List.Perm.refl _⟩
      · have := hj'.1; simp only [Tree.root]; omega
      · simp only [Tree.root]; omega
      · rw [hch 0 (by omega)]; rfl
      · rw [hch 1 (by omega)]; rfl
      · rw [← (hfrN 0 (Or.inl (by omega))).nd hL]; exact h0
      · exact fun q h1 h2 => Node.bucket_blank b v _ [j] le_rfl hz0 q (by omega) h2

/-- Two subtrees and the node above them. -/
theorem made_split (hc : c.WF) (P : Par) (hB : c.L.Fits P.B) (ids l rt : List Nat) (isRoot : Bool)
    (m : Bytes) (g g1 g2 g3 : G) (b b1 b2 : Bytes) (cx cy v : Nat) (Ox Oy xs ys : List Nat) (cl cr : Nat)
    (hord : (xs = l ∧ ys = rt ∧ cl = cx ∧ cr = cy) ∨ (xs = rt ∧ ys = l ∧ cl = cy ∧ cr = cx))
    (hperm : (l ++ rt).Perm ids) (hl0 : l ≠ []) (hr0 : rt ≠ []) (hdiv : DivisionBy c b P.n m l rt)
    (hlen : ids.length ≤ P.n)
    (hbig : ¬ (ids.length ≤ c.L.K ∧ (isRoot = false ∨ P.n ≤ c.L.K ∨ ids.length = 1)))
    (hx : Made c P g g1 b b1 xs false cx Ox) (hy : Made c P g1 g2 b1 b2 ys false cy Oy)
    (hv1 : P.n ≤ v) (hv2 : v < P.B) (hO : ∀ x ∈ g2.O, x < v) (hk1 : Kept g2 g3) (hk2 : g3.κ + 1 = g2.κ)
    (hk3 : g3.O = v :: g2.O) :
    Made c P g g3 b (Node.copyNode b2 (v * c.L.nodeSize)
      (Node.setChildren c.L (Node.setNDesc c.L m 0 (if isRoot then P.n else ids.length)) 0 [cl, cr])
      0 c.L.f) ids isRoot v (v :: (Oy ++ Ox)) := by
  have hL := hc.layout
  have hp := hL.nodeSize_pos
  have hf := hL.f_le
  have hBr := hB.lt_range hp
  set nd := if isRoot then P.n else ids.length with hndef
  set b3 := Node.copyNode b2 (v * c.L.nodeSize)
      (Node.setChildren c.L (Node.setNDesc c.L m 0 nd) 0 [cl, cr]) 0 c.L.f with hb3
  have hg2 : g2.O = Oy ++ (Ox ++ g.O) := by rw [hy.O, hx.O]
  have hvO : v ∉ g2.O := fun h => by have := hO v h; omega
  have hfr : ∀ x, (x < v * c.L.nodeSize ∨ v * c.L.nodeSize + c.L.nodeSize ≤ x) → b3 x = b2 x :=
    fun x hx => Node.copyNode_frame _ _ _ _ _ _ (by omega)
  have hfrN : ∀ i, i < P.n ∨ i ∈ g2.O → SameNode c.L b2 b3 i := by
    intro i hi
    apply sameNode_write _ hfr
    rintro rfl
    rcases hi with h | h
    · omega
    · exact hvO h
  have hlpos := List.length_pos_iff.2 hl0
  have hrpos := List.length_pos_iff.2 hr0
  have hsum : l.length + rt.length = ids.length := by
    have := hperm.length_eq; simpa using this
  have hxy : xs.length + ys.length = ids.length ∧ 0 < xs.length ∧ 0 < ys.length := by
    rcases hord with ⟨rfl, rfl, -, -⟩ | ⟨rfl, rfl, -, -⟩ <;> omega
  have hcx : Idx.cap xs.length = 2 * xs.length - 1 := by unfold Idx.cap; omega
  have hcy : Idx.cap ys.length = 2 * ys.length - 1 := by unfold Idx.cap; omega
  have hci : Idx.cap ids.length = 2 * ids.length - 1 := by unfold Idx.cap; omega
  have hndr : nd < c.L.range := by rw [hndef]; split <;> omega
  have hcxv : cx < v := by
    rcases hx.rootAt with h | h
    · omega
    · exact hO cx (by rw [hg2]; simp [h])
  have hcyv : cy < v := by
    rcases hy.rootAt with h | h
    · omega
    · exact hO cy (by rw [hg2]; simp [h])
  have hclr : cl < v ∧ cr < v := by
    rcases hord with ⟨-, -, rfl, rfl⟩ | ⟨-, -, rfl, rfl⟩ <;> exact ⟨by omega, by omega⟩
  have hbytes : ∀ j, j < c.L.nodeSize → b3 (v * c.L.nodeSize + j) =
      if j < c.L.f then Node.setChildren c.L (Node.setNDesc c.L m 0 nd) 0 [cl, cr] j else 0 := by
    intro j hj
    split
    · next hjf => rw [hb3, Node.copyNode_inside _ _ _ _ _ _ hjf, Nat.zero_add]
    · rw [hb3, Node.copyNode_frame _ _ _ _ _ _ (Or.inr (by omega))]
      exact hy.zero v hv1 hvO j hj
  -- both subtrees survive in the final memory
  have htrees : ∀ D, (∀ x ∈ v :: (Oy ++ Ox), x < D) → c.L.Deep D → ∃ tl tr : Tree, tl.root = cl ∧ tr.root = cr ∧
      SidedTree c b3 P.n tl ∧ SidedTree c b3 P.n tr ∧ tl.items.Perm l ∧ tr.items.Perm rt ∧
      (tl.inner ++ tr.inner).Perm (Oy ++ Ox) := by
    intro D hD hdeep
    obtain ⟨tx, ex, sx, ix, nx⟩ := hx.sub rfl D (fun x h => hD x (by simp [h])) (Or.inl hdeep)
    obtain ⟨ty, ey, sy, iy, ny⟩ := hy.sub rfl D (fun x h => hD x (by simp [h])) (Or.inl hdeep)
    have sx' : SidedTree c b3 P.n tx := by
      have sx2 : SidedTree c b2 P.n tx := by
        apply sx.congr hL
        · intro i hi; exact hy.frame i (Or.inl hi)
        · intro i hi; exact hy.frame i (Or.inr (by rw [hx.O]; simp [nx.mem_iff.1 hi]))
      apply sx2.congr hL
      · intro i hi; exact hfrN i (Or.inl hi)
      · intro i hi; exact hfrN i (Or.inr (by rw [hg2]; simp [nx.mem_iff.1 hi]))
    have sy' : SidedTree c b3 P.n ty := by
      apply sy.congr hL ?_ ?_
      · intro i hi; exact hfrN i (Or.inl hi)
      · intro i hi; exact hfrN i (Or.inr (by rw [hg2]; simp [ny.mem_iff.1 hi]))
    have hin : (ty.inner ++ tx.inner).Perm (Oy ++ Ox) := ny.append nx
    rcases hord with ⟨rfl, rfl, rfl, rfl⟩ | ⟨rfl, rfl, rfl, rfl⟩
    · exact ⟨tx, ty, ex, ey, sx', sy', ix, iy, List.perm_append_comm.trans hin⟩
    · exact ⟨ty, tx, ey, ex, sy', sx', iy, ix, hin⟩
  have hcut : ∀ tl tr : Tree, tl.items.Perm l → tr.items.Perm rt → SidedTree c b3 P.n tl → SidedTree c b3 P.n tr →
      Sided c b3 P.n (.split v tl tr) := by
    intro tl tr h3 h4 h1 h2
    refine Or.inl ⟨⟨m, (hdiv.perm h3 h4).congr hL ?_ ?_, ?_⟩, h1.2, h2.2⟩
    · intro i hi j hj
      rw [hx.frame i (Or.inl hi) j hj, hy.frame i (Or.inl hi) j hj, hfrN i (Or.inl hi) j hj]
    · rintro k (hk | hk)
      · exact (h1.1.items_isItem k hk).1
      · exact (h2.1.items_isItem k hk).1
    · intro j hj1 hj2
      rw [hbytes j (by omega), if_pos hj2,
        Node.setChildren_frame _ _ _ _ (Or.inr (by simp only [List.length_cons, List.length_nil]; omega)),
        Node.setNDesc_frame _ _ _ _ (Or.inr (by omega))]
  have hreads : ∀ D, v < D → c.L.Deep D → ndAt c.L b3 v = nd ∧ childAt c.L b3 v 0 = cl ∧
      childAt c.L b3 v 1 = cr := by
    intro D hD hdeep
    exact Node.split_reads hL hdeep hndr (by omega) (by omega) (by omega) hbytes
  refine ⟨(hx.kept.trans hy.kept).trans hk1, ?_, ?_, ?_, ?_, ?_, ?_, ?_, Or.inr (by simp), ?_, ?_, ?_, ?_, ?_⟩
  · rw [hk3, hg2]; simp
  · have h1 := hx.κ; have h2 := hy.κ
    simp only [List.length_cons, List.length_append]; omega
  · have h1 := hx.cap; have h2 := hy.cap
    simp only [List.length_cons, List.length_append]
    omega
  · intro x hm
    simp only [List.mem_cons, List.mem_append] at hm
    rcases hm with rfl | hm | hm
    · exact ⟨hv1, hv2⟩
    · exact hy.ge x hm
    · exact hx.ge x hm
  · intro x hm
    simp only [List.mem_cons, List.mem_append] at hm
    rcases hm with rfl | hm | hm
    · intro h; exact hvO (by rw [hg2]; simp [h])
    · intro h; exact hy.fresh x hm (by rw [hx.O]; simp [h])
    · exact hx.fresh x hm
  · rw [hk3]; exact zeroOut_write hy.zero hfr
  · intro i hi
    have h1 := hx.frame i hi
    have h2 := hy.frame i (by rw [hx.O]; rcases hi with h | h <;> simp [h])
    have h3 := hfrN i (by rw [hg2]; rcases hi with h | h <;> simp [h])
    intro j hj
    rw [h1 j hj, h2 j hj, h3 j hj]
  · intro _
    refine ⟨by simp, ?_⟩
    intro x hm
    simp only [List.mem_cons, List.mem_append] at hm
    rcases hm with rfl | hm | hm
    · exact le_rfl
    · exact (hO x (by rw [hg2]; simp [hm])).le
    · exact (hO x (by rw [hg2]; simp [hm])).le
  · intro hr
    have hnd : nd = P.n := by rw [hndef, if_pos hr]
    rw [← hnd]
    refine Or.inr (Node.nDesc_cut (Idx.nDesc_split hndr (m := m) (cl := cl) (cr := cr)) fun j hj => ?_)
    rw [hbytes j (by have := hL.three_le; omega), Nat.zero_add]
  · intro x hm
    simp only [List.mem_cons, List.mem_append] at hm
    rcases hm with rfl | hm | hm
    · have hK : c.L.K < nd := by
        rw [hndef]
        by_contra hcon
        apply hbig
        split at hcon
        · exact ⟨by omega, Or.inr (Or.inl (by omega))⟩
        · next hr => exact ⟨by omega, Or.inl (by simpa using hr)⟩
      exact Node.split_downward hL hndr hK (by omega) hclr.1 hclr.2 (by omega) hbytes
    · exact (hy.downward x hm).congr hL (hfrN x (Or.inr (by rw [hg2]; simp [hm])))
    · exact ((hx.downward x hm).congr hL (hy.frame x (Or.inr (by rw [hx.O]; simp [hm])))).congr hL
        (hfrN x (Or.inr (by rw [hg2]; simp [hm])))
  · intro hr D hD hor
    subst hr
    have hK : c.L.K < ids.length := by
      by_contra hcon
      exact hbig ⟨by omega, Or.inl rfl⟩
    have hdeep := hor.resolve_right (by omega)
    obtain ⟨tl, tr, e1, e2, h1, h2, h3, h4, h5⟩ := htrees D hD hdeep
    obtain ⟨r1, r2, r3⟩ := hreads D (hD v (by simp)) hdeep
    simp only [Bool.false_eq_true, if_false] at hndef
    refine ⟨.split v tl tr, rfl,
      ⟨⟨hv1, by omega, by omega, by omega, ?_, by omega, by omega, ?_, ?_, h1.1, h2.1⟩, hcut tl tr h3 h4 h1 h2⟩,
      (h3.append h4).trans hperm, ?_⟩
    · have e1 := h3.length_eq; have e2 := h4.length_eq
      rw [List.length_append]; omega
    · intro h0; rw [h0] at h3; exact hl0 h3.nil_eq.symm
    · intro h0; rw [h0] at h4; exact hr0 h4.nil_eq.symm
    · show (tl.inner ++ tr.inner ++ [v]).Perm _
      exact List.perm_append_comm.trans (h5.cons v)
  · intro hr D hD hor
    subst hr
    have hK : c.L.K < P.n := by
      by_contra hcon
      exact hbig ⟨by omega, Or.inr (Or.inl (by omega))⟩
    have hdeep := hor.resolve_right (by omega)
    obtain ⟨tl, tr, e1, e2, h1, h2, h3, h4, h5⟩ := htrees D hD hdeep
    obtain ⟨r1, r2, r3⟩ := hreads D (hD v (by simp)) hdeep
    simp only [if_true] at hndef
    refine ⟨.split v tl tr, rfl, ⟨⟨hv1, by omega, by omega, by omega, by omega,
      by omega, by omega, Or.inl ⟨?_, ?_, ?_, h1.1, h2.1⟩⟩, hcut tl tr h3 h4 h1 h2⟩, ?_⟩
    · intro h0; rw [h0] at h3; exact hl0 h3.nil_eq.symm
    · intro h0; rw [h0] at h4; exact hr0 h4.nil_eq.symm
    · exact (h3.append h4).trans hperm
    · show (tl.inner ++ tr.inner ++ [v]).Perm _
      exact List.perm_append_comm.trans (h5.cons v)

theorem Made.items {P : Par} (hL : c.L.Ok c.C.sz) {g g' : G} {b b' : Bytes} {ids : List Nat}
    {isRoot : Bool} {root : Nat} {O' : List Nat} (h : Made c P g g' b b' ids isRoot root O') {x : Nat}
    (hx : IsItem c.L b P.n x) : IsItem c.L b' P.n x :=
  ⟨hx.1, by rw [← (h.frame x (Or.inl hx.1)).nd hL]; exact hx.2⟩

theorem makeTree_safe (hc : c.WF) (P : Par) (hB : c.L.Fits P.B) (hT : P.tot → Total c) (fuel : Nat) :
    ∀ (ids : List Nat) (isRoot : Bool) (k : Nat → Prog c) (g : G) (b : Bytes),
    ids.length < fuel → Idx.cap ids.length ≤ g.κ → ZeroOut c P.n g.O b → ids.length ≤ P.n →
    (isRoot = false → ids ≠ []) → (∀ x ∈ ids, IsItem c.L b P.n x) →
    (isRoot = true → ids.length = 1 → c.L.K < P.n → ndAt c.L b 0 = 0) →
    (isRoot = true → ids = [] → P.n ≤ c.L.K) →
    (∀ root O' g' b', Made c P g g' b b' ids isRoot root O' → Safe P (k root) hF g' b') →
    Safe P (Prog.makeTree P.n fuel ids isRoot k) hF g b := by
  have hL := hc.layout
  induction fuel with
  | zero => intro ids _ _ _ _ h; omega
  | succ fuel ih =>
    intro ids isRoot k g b hfuel hcap hz hlen hne hitems hlone hnil hk
    have hc1 : 1 ≤ Idx.cap ids.length := le_max_left _ _
    unfold Prog.makeTree
    split
    · next j =>
      apply hk j [] g b
      obtain ⟨h1, h2⟩ := hitems j (by simp)
      refine ⟨Kept.refl g, rfl, rfl, by simp, by simp, by simp, hz, fun i _ j _ => rfl, Or.inl h1,
        by simp, by simp, by simp, ?_, by simp⟩
      intro _ D _ _
      exact ⟨.item j, rfl, ⟨⟨h1, h2⟩, trivial⟩, by simp [Tree.items], by simp [Tree.inner]⟩
    · next hnot =>
      have hne2 : isRoot = false → 2 ≤ ids.length := by
        intro hr
        subst hr
        have h0 := List.length_pos_iff.2 (hne rfl)
        have h1 : ids.length ≠ 1 := by
          intro h1
          obtain ⟨j, hj⟩ := List.length_eq_one_iff.1 h1
          exact hnot j hj rfl
        omega
      split
      · next hb =>
        apply bucket_safe hc P hB ids isRoot k g b (by omega) hb.1
        intro v g' hv1 hv2 hO hk1 hk2 hk3
        exact hk v [v] g' _ (made_bucket hc P hB ids isRoot g g' b v hz hlen hne2 hitems hlone hb.1 hb.2
          hv1 hv2 hO hk1 hk2 hk3)
      · next hb =>
        have h2 : 2 ≤ ids.length := by
          cases isRoot with
          | false => exact hne2 rfl
          | true =>
            by_contra hcon
            have hKge := hL.K_ge
            apply hb
            refine ⟨by omega, ?_⟩
            by_cases h1 : ids.length = 1
            · exact Or.inr (Or.inr h1)
            · exact Or.inr (Or.inl (hnil rfl (List.length_eq_zero_iff.1 (by omega))))
        apply choose_safe hc P hT ids g b _ (fun x hx => (hitems x hx).1) h2 hlen
        intro m l rt hperm hl0 hr0 hdiv
        have hlpos := List.length_pos_iff.2 hl0
        have hrpos := List.length_pos_iff.2 hr0
        have hsum : l.length + rt.length = ids.length := by
          have := hperm.length_eq; simpa using this
        have hcl : Idx.cap l.length = 2 * l.length - 1 := by unfold Idx.cap; omega
        have hcr : Idx.cap rt.length = 2 * rt.length - 1 := by unfold Idx.cap; omega
        have hci : Idx.cap ids.length = 2 * ids.length - 1 := by unfold Idx.cap; omega
        have hml : ∀ x ∈ l, x ∈ ids := fun x hx => hperm.mem_iff.1 (by simp [hx])
        have hmr : ∀ x ∈ rt, x ∈ ids := fun x hx => hperm.mem_iff.1 (by simp [hx])
        dsimp only
        split
        · apply ih rt false _ g b (by omega) (by omega) hz (by omega) (fun _ => hr0)
            (fun x hx => hitems x (hmr x hx)) (by simp) (by simp)
          intro cr Ox g1 b1 hx
          have h1 := hx.κ; have h1' := hx.cap
          apply ih l false _ g1 b1 (by omega) (by omega) hx.zero (by omega) (fun _ => hl0)
            (fun x hxx => hx.items hL (hitems x (hml x hxx))) (by simp) (by simp)
          intro cl Oy g2 b2 hy
          have h2 := hy.κ; have h2' := hy.cap
          apply place_safe hc P hB _ _ g2 b2 (by omega)
          intro v g3 hv1 hv2 hO hk1 hk2 hk3
          exact hk v _ g3 _ (made_split hc P hB ids l rt isRoot m g g1 g2 g3 b b1 b2 cr cl v Ox Oy rt l cl cr
            (Or.inr ⟨rfl, rfl, rfl, rfl⟩) hperm hl0 hr0 hdiv hlen hb hx hy hv1 hv2 hO hk1 hk2 hk3)
        · apply ih l false _ g b (by omega) (by omega) hz (by omega) (fun _ => hl0)
            (fun x hx => hitems x (hml x hx)) (by simp) (by simp)
          intro cl Ox g1 b1 hx
          have h1 := hx.κ; have h1' := hx.cap
          apply ih rt false _ g1 b1 (by omega) (by omega) hx.zero (by omega) (fun _ => hr0)
            (fun x hxx => hx.items hL (hitems x (hmr x hxx))) (by simp) (by simp)
          intro cr Oy g2 b2 hy
          have h2 := hy.κ; have h2' := hy.cap
          apply place_safe hc P hB _ _ g2 b2 (by omega)
          intro v g3 hv1 hv2 hO hk1 hk2 hk3
          exact hk v _ g3 _ (made_split hc P hB ids l rt isRoot m g g1 g2 g3 b b1 b2 cl cr v Ox Oy l rt cl cr
            (Or.inl ⟨rfl, rfl, rfl, rfl⟩) hperm hl0 hr0 hdiv hlen hb hx hy hv1 hv2 hO hk1 hk2 hk3)

theorem scan_safe (hL : c.L.Ok c.C.sz) (P : Par) (g : G) (b : Bytes) (k : List Nat → Prog c) (is : List Nat) :
    ∀ acc, (∀ x ∈ is, x < P.n) →
    Safe P (k (acc ++ is.filter fun i => decide (1 ≤ ndAt c.L b i))) hR g b →
    Safe P (Prog.scan is acc k) hR g b := by
  induction is with
  | nil => intro acc _ h; simpa [Prog.scan] using h
  | cons i is ih =>
    intro acc hlt hk
    unfold Prog.scan
    dsimp only [Safe]
    refine ⟨rfl, ?_⟩
    intro mem r hsz hrg hag
    have hi := hlt i (by simp)
    have hle : (i + 1) * c.L.nodeSize ≤ P.n * c.L.nodeSize := Nat.mul_le_mul_right _ hi
    rw [Nat.add_mul] at hle
    rw [getNode_item hi hsz hrg, getNode_item (m := ⟨P.n * c.L.nodeSize, b⟩) hi le_rfl hrg]
    have h0 : c.L.szIX ≤ c.L.nodeSize := by
      have := hL.three_le; omega
    have hnd : Node.nDesc c.L mem.get (i * c.L.nodeSize) = ndAt c.L b i := by
      apply Node.nDesc_congr
      intro j hj
      exact hag _ (by omega)
    refine ⟨?_, fun e he => (by cases he), ?_⟩
    · simp only [bind, Except.bind]
      rw [hnd]
    intro nd r' he
    cases he
    rw [hnd]
    apply ih _ (fun x hx => hlt x (by simp [hx]))
    by_cases h1 : 1 ≤ ndAt c.L b i
    · rw [if_pos h1]
      rw [List.filter_cons_of_pos (by simpa using h1)] at hk
      simpa using hk
    · rw [if_neg h1]
      rw [List.filter_cons_of_neg (by simpa using h1)] at hk
      exact hk

/-- What a worker has when it is about to start another tree. -/
structure Ready (c : Cfg) (P : Par) (g : G) (b : Bytes) (rs : List Nat) : Prop where
  zero : ZeroOut c P.n g.O b
  live : P.live = (List.range P.n).filter fun i => decide (1 ≤ ndAt c.L b i)
  ones : ∀ x ∈ P.live, ndAt c.L b x = 1
  lone : P.live.length = 1 → c.L.K < P.n → ndAt c.L b 0 = 0
  nonempty : P.live = [] → P.n ≤ c.L.K
  fin : g.fin = none
  geO : ∀ x ∈ g.O, P.n ≤ x
  sub : ∀ r ∈ rs, r ∈ g.O
  top : ∀ x ∈ g.O, ∃ r ∈ rs, x ≤ r
  nodup : rs.Nodup
  counted : ∀ r ∈ rs, c.L.RootCount P.n (ndAt c.L b r)
  downward : ∀ x ∈ g.O, Downward c.L b P.n x
  forest : ∀ D, (∀ x ∈ g.O, x < D) → (c.L.Deep D ∨ P.n ≤ c.L.K) → ∃ ts : List Tree,
    ts.map Tree.root = rs ∧ (∀ t ∈ ts, SidedRoot c b P.n P.live t) ∧ (ts.flatMap Tree.inner).Perm g.O

theorem Ready.next (hL : c.L.Ok c.C.sz) {P : Par} {g g' : G} {b b' : Bytes} {rs : List Nat} {root : Nat}
    {O' : List Nat} (R : Ready c P g b rs) (hm : Made c P g g' b b' P.live true root O') :
    Ready c P g' b' (rs ++ [root]) := by
  have hnd : ∀ i, i < P.n → ndAt c.L b i = ndAt c.L b' i := fun i hi => (hm.frame i (Or.inl hi)).nd hL
  have hlt : ∀ x ∈ P.live, x < P.n := by
    intro x hx
    rw [R.live] at hx
    exact List.mem_range.1 (List.mem_filter.1 hx).1
  obtain ⟨ht1, ht2⟩ := hm.top rfl
  refine ⟨hm.zero, ?_, ?_, ?_, R.nonempty, hm.kept.fin.trans R.fin, ?_, ?_, ?_, ?_, ?_, ?_, ?_⟩
  · rw [R.live]
    apply List.filter_congr
    intro i hi
    rw [hnd i (List.mem_range.1 hi)]
  · intro x hx
    rw [← hnd x (hlt x hx)]; exact R.ones x hx
  · intro h1 h2
    rw [← hnd 0 (by omega)]; exact R.lone h1 h2
  · intro x hx
    rw [hm.O, List.mem_append] at hx
    rcases hx with h | h
    · exact (hm.ge x h).1
    · exact R.geO x h
  · intro r hr
    rw [hm.O, List.mem_append]
    rw [List.mem_append, List.mem_singleton] at hr
    rcases hr with h | rfl
    · exact Or.inr (R.sub r h)
    · exact Or.inl ht1
  · intro x hx
    rw [hm.O, List.mem_append] at hx
    rcases hx with h | h
    · exact ⟨root, by simp, ht2 x h⟩
    · obtain ⟨r, h1, h2⟩ := R.top x h
      exact ⟨r, by simp [h1], h2⟩
  · rw [List.nodup_append]
    refine ⟨R.nodup, by simp, ?_⟩
    intro a ha x hx
    simp only [List.mem_singleton] at hx
    subst hx
    rintro rfl
    exact hm.fresh a ht1 (R.sub a ha)
  · intro r hr
    rw [List.mem_append, List.mem_singleton] at hr
    rcases hr with h | rfl
    · rw [← (hm.frame r (Or.inr (R.sub r h))).nd hL]
      exact R.counted r h
    · exact hm.counted rfl
  · intro x hx
    rw [hm.O, List.mem_append] at hx
    rcases hx with h | h
    · exact hm.downward x h
    · exact (R.downward x h).congr hL (hm.frame x (Or.inr h))
  · intro D hD hor
    obtain ⟨ts, h1, h2, h3⟩ := R.forest D (fun x hx => hD x (by rw [hm.O]; simp [hx])) hor
    obtain ⟨t, e1, e2, e3⟩ := hm.tree rfl D (fun x hx => hD x (by rw [hm.O]; simp [hx])) hor
    refine ⟨ts ++ [t], by simp [h1, e1], ?_, ?_⟩
    · intro u hu
      rw [List.mem_append, List.mem_singleton] at hu
      rcases hu with hu | rfl
      · apply (h2 u hu).congr hL (fun i hi => hm.frame i (Or.inl hi))
        intro i hi
        exact hm.frame i (Or.inr (h3.mem_iff.1 (List.mem_flatMap.2 ⟨u, hu, hi⟩)))
      · exact e2
    · rw [hm.O, List.flatMap_append]
      simp only [List.flatMap_cons, List.flatMap_nil, List.append_nil]
      exact List.perm_append_comm.trans (e3.append h3)

theorem Ready.congr {P : Par} {g g' : G} {b : Bytes} {rs : List Nat} (R : Ready c P g b rs)
    (hO : g'.O = g.O) (hf : g'.fin = g.fin) : Ready c P g' b rs := by
  constructor
  · rw [hO]; exact R.zero
  · exact R.live
  · exact R.ones
  · exact R.lone
  · exact R.nonempty
  · rw [hf]; exact R.fin
  · rw [hO]; exact R.geO
  · rw [hO]; exact R.sub
  · rw [hO]; exact R.top
  · exact R.nodup
  · exact R.counted
  · rw [hO]; exact R.downward
  · rw [hO]; exact R.forest

theorem thread_safe (hc : c.WF) (P : Par) (hB : c.L.Fits P.B) (hT : P.tot → Total c) (trees : Int)
    (h2n : trees = -1 → 2 * P.n ≤ P.B) (fuel : Nat) :
    ∀ (rs : List Nat) (g : G) (b : Bytes), Ready c P g b rs → g.trees = trees →
    (trees ≠ -1 → rs.length ≤ trees.toNat ∧ trees.toNat < fuel + rs.length ∧
      (trees.toNat - rs.length) * Idx.cap P.live.length ≤ g.κ) →
    (trees = -1 → rs.length ≤ P.n ∧ P.n < fuel + rs.length ∧ Idx.cap P.live.length ≤ g.M) →
    Safe P (Prog.thread (c := c) P.n trees fuel rs) hF g b := by
  have hL := hc.layout
  have hp := hL.nodeSize_pos
  induction fuel with
  | zero =>
    intro rs g b _ _ h1 h2
    by_cases ht : trees = -1
    · have := h2 ht; omega
    · have := h1 ht; omega
  | succ fuel ih =>
    intro rs g b R hgt h1 h2
    have hlt : ∀ x ∈ P.live, x < P.n := by
      intro x hx
      rw [R.live] at hx
      exact List.mem_range.1 (List.mem_filter.1 hx).1
    have hlen : P.live.length ≤ P.n := by
      rw [R.live]
      exact (List.length_filter_le _ _).trans (by simp)
    -- publishing the roots
    have stop : ∀ g', g'.O = g.O → g'.fin = g.fin → g'.trees = g.trees →
        (trees ≠ -1 → rs.length = trees.toNat) → (trees = -1 → 2 * P.n ≤ g'.seen) →
        Safe P (Prog.lockR <| Prog.readRoots fun old => Prog.setRoots (old ++ rs) <| Prog.unlockR
          (Prog.done (c := c))) hF g' b := by
      intro g' e1 e2 e3 e4 e5
      have R' := R.congr e1 e2
      dsimp only [Safe]
      refine ⟨rfl, rfl, fun old => ⟨rfl, rfl, old, rs, rfl, rfl, R'.fin, rfl, rfl, rs, rfl, ?_⟩⟩
      refine ⟨R'.sub, R'.top, R'.nodup, fun h => ?_,
        fun h => e5 (by rw [← hgt, ← e3]; exact h), R'.counted, R'.downward, R'.forest⟩
      have he : g'.trees = trees := e3.trans hgt
      show rs.length = g'.trees.toNat
      rw [he]
      exact e4 (by rw [← he]; exact h)
    -- one more tree
    have go : ∀ g', g'.O = g.O → g'.fin = g.fin → g'.trees = g.trees → g'.M = g.M →
        Idx.cap P.live.length ≤ g'.κ →
        (trees ≠ -1 → rs.length + 1 ≤ trees.toNat ∧ (trees.toNat - rs.length) * Idx.cap P.live.length ≤ g'.κ) →
        (trees = -1 → rs.length + 1 ≤ P.n) →
        Safe P (Prog.rlock <| Prog.scan (List.range P.n) [] fun ids => Prog.runlock <|
          Prog.makeTree P.n (P.n + 2) ids true fun root =>
            Prog.thread (c := c) P.n trees fuel (rs ++ [root])) hF g' b := by
      intro g' e1 e2 e3 e4 e5 e6 e7
      have R' := R.congr e1 e2
      rw [Safe]
      refine ⟨rfl, ?_⟩
      apply scan_safe hL P g' b _ _ _ (fun x hx => List.mem_range.1 hx)
      rw [List.nil_append, ← R'.live]
      rw [Safe]
      refine ⟨rfl, ?_⟩
      apply makeTree_safe hc P hB hT (P.n + 2) P.live true _ g' b (by omega) e5 R'.zero hlen (by simp)
        (fun x hx => ⟨hlt x hx, R'.ones x hx⟩) (fun _ => R'.lone) (fun _ => R'.nonempty)
      intro root O' g2 b2 hm
      have hκ := hm.κ
      have hcap := hm.cap
      apply ih _ g2 b2 (R'.next hL hm) (hm.kept.trees.trans (e3.trans hgt))
      · intro ht
        obtain ⟨h3, h4⟩ := e6 ht
        have h5 := h1 ht
        simp only [List.length_append, List.length_singleton]
        refine ⟨h3, by omega, ?_⟩
        have : trees.toNat - rs.length = (trees.toNat - (rs.length + 1)) + 1 := by omega
        rw [this, Nat.add_mul] at h4
        omega
      · intro ht
        have h3 := e7 ht
        have h4 := h2 ht
        simp only [List.length_append, List.length_singleton]
        refine ⟨h3, by omega, ?_⟩
        rw [hm.kept.M, e4]; exact h4.2.2
    unfold Prog.thread
    dsimp only
    by_cases ht : trees = -1
    · rw [if_pos ht]
      obtain ⟨h3, h4, h5⟩ := h2 ht
      rw [Safe]
      refine ⟨rfl, ?_⟩
      rw [Safe]
      refine ⟨Or.inl rfl, ?_⟩
      intro v _ hnv hvB hOv
      have hw : c.L.wrap (2 * P.n) = 2 * P.n := by
        apply c.L.wrap_eq
        have := h2n ht
        have := hB.lt_range hp
        omega
      by_cases hv : v ≥ c.L.wrap (2 * P.n)
      · refine ⟨g.κ, Or.inl le_rfl, ?_⟩
        rw [if_pos hv]
        rw [Safe]
        refine ⟨rfl, stop _ rfl rfl rfl (fun h => absurd ht h) (fun _ => ?_)⟩
        rw [hw] at hv
        exact hv
      · have hv' : v < 2 * P.n := by rw [hw] at hv; omega
        refine ⟨g.M, Or.inr ⟨hgt.trans ht, hv', le_rfl⟩, ?_⟩
        rw [if_neg hv, Safe]
        refine ⟨rfl, go _ rfl rfl rfl rfl h5 (fun h => absurd ht h) (fun _ => ?_)⟩
        -- the roots so far are distinct nodes below v
        have hsub : rs.length ≤ (List.range' P.n (v - P.n)).length := by
          apply (List.subperm_of_subset R.nodup ?_).length_le
          intro r hr
          have h6 := R.geO r (R.sub r hr)
          have h7 : r < v := hOv r (R.sub r hr)
          exact List.mem_range'_1.2 ⟨h6, by omega⟩
        simp only [List.length_range'] at hsub
        omega
    · rw [if_neg ht]
      obtain ⟨h3, h4, h5⟩ := h1 ht
      by_cases hdone : (rs.length : Int) ≥ trees
      · rw [if_pos hdone]
        exact stop g rfl rfl rfl (fun _ => by omega) (fun h => absurd h ht)
      · rw [if_neg hdone]
        have hge : rs.length + 1 ≤ trees.toNat := by omega
        refine go g rfl rfl rfl rfl ?_ (fun _ => ⟨hge, h5⟩) (fun h => absurd h ht)
        have : trees.toNat - rs.length = (trees.toNat - (rs.length + 1)) + 1 := by omega
        rw [this, Nat.add_mul] at h5
        omega

end Conc
end Annoy
