import Verif.Proof.Conc
import Mathlib.Algebra.Order.BigOperators.Group.List
/-!
The invariant of `Build` with several workers, and its preservation by every action.
-/
namespace Annoy
namespace Conc
variable {c : Cfg}

/-- What a worker with nodes `O` can see: the item slots and its own nodes. -/
def view (c : Cfg) (n : Nat) (O : List Nat) (d : Bytes) : Bytes :=
  ⟨fun x => if x < n * c.L.nodeSize ∨ x / c.L.nodeSize ∈ O then d x else 0⟩

theorem view_apply (n : Nat) (O : List Nat) (d : Bytes) (x : Nat) :
    view c n O d x = if x < n * c.L.nodeSize ∨ x / c.L.nodeSize ∈ O then d x else 0 := rfl

theorem view_congr {n : Nat} {O : List Nat} {d d' : Bytes}
    (h : ∀ x, (x < n * c.L.nodeSize ∨ x / c.L.nodeSize ∈ O) → d x = d' x) : view c n O d = view c n O d' := by
  apply Bytes.ext'; intro x
  rw [view_apply, view_apply]
  split
  · next hx => exact h x hx
  · rfl

theorem view_own (hp : 0 < c.L.nodeSize) {n : Nat} {O : List Nat} {d : Bytes} {i j : Nat} (hi : i ∈ O)
    (hj : j < c.L.nodeSize) : view c n O d (i * c.L.nodeSize + j) = d (i * c.L.nodeSize + j) := by
  rw [view_apply, if_pos]
  right
  rw [Nat.add_comm, Nat.add_mul_div_right _ _ hp, Nat.div_eq_of_lt hj]
  simpa using hi

theorem view_item {n : Nat} {O : List Nat} {d : Bytes} {x : Nat} (hx : x < n * c.L.nodeSize) :
    view c n O d x = d x := by
  rw [view_apply, if_pos (Or.inl hx)]

theorem div_eq_iff_node (hp : 0 < c.L.nodeSize) {x i : Nat} :
    x / c.L.nodeSize = i ↔ i * c.L.nodeSize ≤ x ∧ x < i * c.L.nodeSize + c.L.nodeSize := by
  rw [Nat.div_eq_iff hp]; omega

/-- The view after a write to an own node is the write applied to the view. -/
theorem view_write (hp : 0 < c.L.nodeSize) {n : Nat} {O : List Nat} {d : Bytes} {i : Nat} (hi : i ∈ O)
    {f : Bytes → Nat → Bytes} (hf : ∀ d a x, (x < a ∨ a + c.L.nodeSize ≤ x) → f d a x = d x)
    (hl : ∀ d d' a, (∀ j, j < c.L.nodeSize → d (a + j) = d' (a + j)) →
      ∀ j, j < c.L.nodeSize → f d a (a + j) = f d' a (a + j)) :
    view c n O (f d (i * c.L.nodeSize)) = f (view c n O d) (i * c.L.nodeSize) := by
  apply Bytes.ext'; intro x
  by_cases hx : i * c.L.nodeSize ≤ x ∧ x < i * c.L.nodeSize + c.L.nodeSize
  · obtain ⟨j, rfl⟩ : ∃ j, x = i * c.L.nodeSize + j := ⟨x - i * c.L.nodeSize, by omega⟩
    have hj : j < c.L.nodeSize := by omega
    rw [view_own hp hi hj]
    apply hl _ _ _ _ j hj
    intro j hj
    rw [view_own hp hi hj]
  · have hx' : x < i * c.L.nodeSize ∨ i * c.L.nodeSize + c.L.nodeSize ≤ x := by omega
    rw [view_apply, hf _ _ _ hx', hf _ _ _ hx', view_apply]

/-- A write to a node of somebody else is not seen. -/
theorem view_other (hp : 0 < c.L.nodeSize) {n : Nat} {O : List Nat} {d : Bytes} {i : Nat} (hi : i ∉ O)
    (hn : n ≤ i) {f : Bytes → Nat → Bytes}
    (hf : ∀ d a x, (x < a ∨ a + c.L.nodeSize ≤ x) → f d a x = d x) :
    view c n O (f d (i * c.L.nodeSize)) = view c n O d := by
  apply view_congr
  intro x hx
  apply hf
  by_contra hcon
  have hd : x / c.L.nodeSize = i := (div_eq_iff_node hp).2 (by omega)
  rcases hx with hx | hx
  · have : n * c.L.nodeSize ≤ i * c.L.nodeSize := Nat.mul_le_mul_right _ hn
    omega
  · rw [hd] at hx; exact hi hx

theorem view_take (hp : 0 < c.L.nodeSize) {n v : Nat} {O : List Nat} {d : Bytes}
    (hz : ∀ x, v * c.L.nodeSize ≤ x → d x = 0) : view c n (v :: O) d = view c n O d := by
  apply Bytes.ext'; intro x
  rw [view_apply, view_apply]
  by_cases h1 : x < n * c.L.nodeSize ∨ x / c.L.nodeSize ∈ O
  · rw [if_pos h1, if_pos (by rcases h1 with h | h <;> simp [h])]
  · rw [if_neg h1]
    split
    · next h2 =>
      apply hz
      rcases h2 with h2 | h2
      · exact absurd (Or.inl h2) h1
      · rw [List.mem_cons] at h2
        rcases h2 with h2 | h2
        · exact ((div_eq_iff_node hp).1 h2).1
        · exact absurd (Or.inr h2) h1
    · rfl

/-- A worker with its ghost state. -/
structure Th (c : Cfg) where
  h : Held
  p : Prog c
  g : G

/-- What holds for each worker. -/
structure TI (P : Par) (s : Idx c) (t : Th c) : Prop where
  safe : Safe P t.p t.h t.g (view c P.n t.g.O s.alloc.data)
  kn : t.h.nn = true → ∀ v, t.g.kn = some v → s.nNodes = v
  ks : t.h.nn = true → ∀ z, t.g.ks = some z → s.nodesSize = z
  kr : t.h.rt = true → ∀ r, t.g.kr = some r → s.roots = r
  seen : t.g.seen ≤ s.nNodes
  le : t.g.κ ≤ t.g.M

/-- Lock exclusion between two workers. -/
def X (a b : Held) : Prop :=
  ¬ (a.nn = true ∧ b.nn = true) ∧ ¬ (a.rt = true ∧ b.rt = true) ∧ (a.wr = .idle ∨ b.wr = .idle) ∧
    ¬ (a.wr = .held ∧ b.rd = true) ∧ ¬ (b.wr = .held ∧ a.rd = true)

theorem X.symm {a b : Held} (h : X a b) : X b a :=
  ⟨fun q => h.1 q.symm, fun q => h.2.1 q.symm, h.2.2.1.symm, h.2.2.2.2, h.2.2.2.1⟩

/-- The invariant.  `d0`: the bytes of the item slots; `pub`: the roots in the order of publication. -/
structure Inv (P : Par) (d0 : Bytes) (s : Idx c) (ts : List (Th c)) (pub : List (List Nat)) : Prop where
  base : s.BInv P.n
  built : s.built = false
  items : ∀ x, x < P.n * c.L.nodeSize → s.alloc.data x = d0 x
  thr : ∀ t ∈ ts, TI P s t
  excl : (ts.map Th.h).Pairwise X
  own : (ts.flatMap fun t => t.g.O).Perm (List.range' P.n (s.nNodes - P.n))
  credit : s.nNodes + (ts.map fun t => t.g.κ).sum ≤ P.B
  refill : (∃ t ∈ ts, t.g.trees = -1) → 2 * P.n + (ts.map fun t => t.g.M).sum ≤ P.B + 1
  shares : (ts.map fun t => t.g.trees).Perm P.sh
  order : pub.Perm (ts.filterMap fun t => t.g.fin)
  roots : s.roots = pub.flatten

theorem Inv.perm {P : Par} {d0 : Bytes} {s : Idx c} {ts ts' : List (Th c)} {pub : List (List Nat)}
    (I : Inv P d0 s ts pub) (h : ts.Perm ts') : Inv P d0 s ts' pub where
  base := I.base
  built := I.built
  items := I.items
  thr := fun t ht => I.thr t (h.mem_iff.2 ht)
  excl := ((h.map Th.h).pairwise_iff (fun q => q.symm)).1 I.excl
  own := (h.flatMap_right _).symm.trans I.own
  credit := by rw [← (h.map _).sum_nat]; exact I.credit
  refill := fun ⟨t, ht, e⟩ => by
    rw [← (h.map _).sum_nat]; exact I.refill ⟨t, h.mem_iff.2 ht, e⟩
  shares := (h.map _).symm.trans I.shares
  order := I.order.trans (h.filterMap _)
  roots := I.roots

/-- Other workers do not notice. -/
theorem TI.other {P : Par} {s s' : Idx c} {u : Th c} (T : TI P s u)
    (hv : view c P.n u.g.O s'.alloc.data = view c P.n u.g.O s.alloc.data)
    (hn : s.nNodes ≤ s'.nNodes)
    (hnn : u.h.nn = true → s'.nNodes = s.nNodes ∧ s'.nodesSize = s.nodesSize)
    (hrt : u.h.rt = true → s'.roots = s.roots) : TI P s' u where
  safe := by rw [hv]; exact T.safe
  kn := fun h v hv => by rw [(hnn h).1]; exact T.kn h v hv
  ks := fun h v hv => by rw [(hnn h).2]; exact T.ks h v hv
  kr := fun h v hv => by rw [hrt h]; exact T.kr h v hv
  seen := T.seen.trans hn
  le := T.le

theorem Inv.own_bounds {P : Par} {d0 : Bytes} {s : Idx c} {ts : List (Th c)} {pub : List (List Nat)}
    (I : Inv P d0 s ts pub) {t : Th c} (ht : t ∈ ts) {x : Nat} (hx : x ∈ t.g.O) : P.n ≤ x ∧ x < s.nNodes := by
  have := I.own.mem_iff.1 (List.mem_flatMap.2 ⟨t, ht, hx⟩)
  have h2 := List.mem_range'_1.1 this
  have := I.base.n_le
  omega

theorem Inv.disjoint {P : Par} {d0 : Bytes} {s : Idx c} {t : Th c} {rest : List (Th c)}
    {pub : List (List Nat)} (I : Inv P d0 s (t :: rest) pub) {u : Th c} (hu : u ∈ rest) {x : Nat}
    (hx : x ∈ t.g.O) : x ∉ u.g.O := by
  have hnd : (((t :: rest).flatMap fun t => t.g.O)).Nodup := I.own.nodup_iff.2 List.nodup_range'
  rw [List.flatMap_cons, List.nodup_append] at hnd
  intro hx'
  exact hnd.2.2 x hx x (List.mem_flatMap.2 ⟨u, hu, hx'⟩) rfl

/-- The general step: worker `t` becomes `t'`, the index `s` becomes `s'`. -/
theorem Inv.upd {P : Par} {d0 : Bytes} {s s' : Idx c} {t t' : Th c} {rest : List (Th c)}
    {pub pub' : List (List Nat)} (I : Inv P d0 s (t :: rest) pub)
    (base : s'.BInv P.n) (built : s'.built = false)
    (items : ∀ x, x < P.n * c.L.nodeSize → s'.alloc.data x = s.alloc.data x)
    (self : TI P s' t') (others : ∀ u ∈ rest, TI P s' u) (ex : ∀ u ∈ rest, X t'.h u.h)
    (own : (t'.g.O ++ rest.flatMap fun t => t.g.O).Perm (List.range' P.n (s'.nNodes - P.n)))
    (credit : s'.nNodes + (t'.g.κ + (rest.map fun t => t.g.κ).sum) ≤ P.B)
    (hM : t'.g.M = t.g.M) (htr : t'.g.trees = t.g.trees)
    (hpub : pub'.Perm ((t' :: rest).filterMap fun t => t.g.fin)) (hroots : s'.roots = pub'.flatten) :
    Inv P d0 s' (t' :: rest) pub' where
  base := base
  built := built
  items := fun x hx => (items x hx).trans (I.items x hx)
  thr := by
    intro u hu
    rw [List.mem_cons] at hu
    rcases hu with rfl | hu
    · exact self
    · exact others u hu
  excl := by
    have := I.excl
    rw [List.map_cons, List.pairwise_cons] at this ⊢
    refine ⟨?_, this.2⟩
    intro a ha
    obtain ⟨u, hu, rfl⟩ := List.mem_map.1 ha
    exact ex u hu
  own := own
  credit := credit
  refill := by
    rintro ⟨u, hu, hut⟩
    have := I.refill (by
      rw [List.mem_cons] at hu
      rcases hu with rfl | hu
      · exact ⟨t, by simp, by rw [← htr]; exact hut⟩
      · exact ⟨u, by simp [hu], hut⟩)
    simp only [List.map_cons, List.sum_cons] at this ⊢
    rw [hM]; exact this
  shares := by
    have := I.shares
    rw [List.map_cons] at this ⊢
    rw [htr]; exact this
  order := hpub
  roots := hroots

/-- A step that changes only the worker itself (and perhaps the generator). -/
theorem Inv.self {P : Par} {d0 : Bytes} {s s' : Idx c} {t t' : Th c} {rest : List (Th c)}
    {pub : List (List Nat)} (I : Inv P d0 s (t :: rest) pub) (hs : ∃ r, s' = { s with rng := r })
    (safe : Safe P t'.p t'.h t'.g (view c P.n t'.g.O s.alloc.data))
    (kn : t'.h.nn = true → ∀ v, t'.g.kn = some v → s.nNodes = v)
    (ks : t'.h.nn = true → ∀ z, t'.g.ks = some z → s.nodesSize = z)
    (kr : t'.h.rt = true → ∀ r, t'.g.kr = some r → s.roots = r)
    (seen : t'.g.seen ≤ s.nNodes) (le : t'.g.κ ≤ t'.g.M)
    (ex : ∀ u ∈ rest, X t'.h u.h)
    (hO : t'.g.O = t.g.O) (hκ : s.nNodes + (t'.g.κ + (rest.map fun t => t.g.κ).sum) ≤ P.B)
    (hM : t'.g.M = t.g.M) (htr : t'.g.trees = t.g.trees) (hfin : t'.g.fin = t.g.fin) :
    Inv P d0 s' (t' :: rest) pub := by
  obtain ⟨r, rfl⟩ := hs
  refine I.upd ⟨⟨I.base.memOK.fits, I.base.memOK.size, I.base.memOK.nodes⟩, I.base.loaded, I.base.nItems,
    I.base.n_le, I.base.le_size, I.base.zero⟩ I.built (fun _ _ => rfl) ⟨safe, kn, ks, kr, seen, le⟩ ?_ ex ?_ hκ hM htr ?_ I.roots
  · intro u hu
    exact (I.thr u (by simp [hu])).other rfl le_rfl (fun _ => ⟨rfl, rfl⟩) (fun _ => rfl)
  · have := I.own
    rw [List.flatMap_cons] at this
    rw [hO]; exact this
  · have := I.order
    rw [List.filterMap_cons] at this ⊢
    rw [hfin]; exact this

/-- What a step of worker `t` leaves of the past: its nodes, what it published, the roots, and what the other workers see. -/
structure Grew (P : Par) (s s' : Idx c) (t : Th c) (rest : List (Th c)) (p' : Prog c) (g' : G) : Prop where
  own : ∀ x ∈ t.g.O, x ∈ g'.O
  fin : ∀ rs, g'.fin = some rs → t.g.fin = some rs ∨ p' = .unlockR .done
  roots : ∃ q, s'.roots = s.roots ++ q
  views : ∀ u ∈ rest, view c P.n u.g.O s'.alloc.data = view c P.n u.g.O s.alloc.data

theorem Inv.step (hc : c.WF) {P : Par} {d0 : Bytes} {s s' : Idx c} {t : Th c} {rest : List (Th c)}
    {pub : List (List Nat)} {h' : Held} {p' : Prog c} (I : Inv P d0 s (t :: rest) pub)
    (st : TStep (rest.map Th.h) s t.h t.p s' h' p') :
    ∃ g' pub', Grew P s s' t rest p' g' ∧ Inv P d0 s' (⟨h', p', g'⟩ :: rest) pub' := by
  have hL := hc.layout
  have hp := hL.nodeSize_pos
  have T := I.thr t (by simp)
  have hcr : s.nNodes + (t.g.κ + (rest.map fun t => t.g.κ).sum) ≤ P.B := by
    have := I.credit; simpa using this
  have hx : ∀ u ∈ rest, X t.h u.h := by
    intro u hu
    have := I.excl
    rw [List.map_cons, List.pairwise_cons] at this
    exact this.1 _ (List.mem_map_of_mem hu)
  have ob : ∀ {f : Held → Prop}, (∀ x ∈ rest.map Th.h, f x) → ∀ u ∈ rest, f u.h :=
    fun h u hu => h _ (List.mem_map_of_mem hu)
  have S := T.safe
  have kn0 := T.kn
  have ks0 := T.ks
  have kr0 := T.kr
  have seen0 := T.seen
  have le0 := T.le
  obtain ⟨h, p, g⟩ := t
  dsimp only at st S kn0 ks0 kr0 seen0 le0 hx hcr
  cases st with
  | lockN h1 h2 =>
    rw [Safe] at S
    obtain ⟨rfl, S⟩ := S
    refine ⟨_, pub, (by exact ⟨fun _ q => q, fun _ q => Or.inl q, ⟨[], (List.append_nil _).symm⟩, fun _ _ => rfl⟩), I.self ⟨s.rng, rfl⟩ S (fun _ v hv => (by cases hv)) (fun _ v hv => (by cases hv))
      (fun q => (by cases q)) seen0 le0 ?_ rfl hcr rfl rfl rfl⟩
    intro u hu
    have := hx u hu
    have := ob h1 u hu
    unfold X at *
    simp_all
  | unlockN h1 =>
    rw [Safe] at S
    obtain ⟨rfl, S⟩ := S
    refine ⟨_, pub, (by exact ⟨fun _ q => q, fun _ q => Or.inl q, ⟨[], (List.append_nil _).symm⟩, fun _ _ => rfl⟩), I.self ⟨s.rng, rfl⟩ S (fun q => (by cases q)) (fun q => (by cases q))
      (fun q => (by cases q)) seen0 le0 ?_ rfl hcr rfl rfl rfl⟩
    intro u hu
    have := hx u hu
    unfold X at *
    simp_all
  | rlock h1 h2 h3 =>
    rw [Safe] at S
    obtain ⟨rfl, S⟩ := S
    refine ⟨_, pub, (by exact ⟨fun _ q => q, fun _ q => Or.inl q, ⟨[], (List.append_nil _).symm⟩, fun _ _ => rfl⟩), I.self ⟨s.rng, rfl⟩ S (fun q => (by cases q)) (fun q => (by cases q))
      (fun q => (by cases q)) seen0 le0 ?_ rfl hcr rfl rfl rfl⟩
    intro u hu
    have := hx u hu
    have := ob h1 u hu
    unfold X at *
    simp_all
  | runlock h1 =>
    rw [Safe] at S
    obtain ⟨rfl, S⟩ := S
    refine ⟨_, pub, (by exact ⟨fun _ q => q, fun _ q => Or.inl q, ⟨[], (List.append_nil _).symm⟩, fun _ _ => rfl⟩), I.self ⟨s.rng, rfl⟩ S (fun q => (by cases q)) (fun q => (by cases q))
      (fun q => (by cases q)) seen0 le0 ?_ rfl hcr rfl rfl rfl⟩
    intro u hu
    have := hx u hu
    unfold X at *
    simp_all
  | announce h1 h2 =>
    rw [Safe] at S
    obtain ⟨hh, S⟩ := S
    have hh : h = hN := by
      rcases hh with rfl | rfl
      · rfl
      · cases h2
    subst hh
    refine ⟨g, pub, (by exact ⟨fun _ q => q, fun _ q => Or.inl q, ⟨[], (List.append_nil _).symm⟩, fun _ _ => rfl⟩), I.self ⟨s.rng, rfl⟩ ?_ (fun q => kn0 rfl) (fun q => ks0 rfl)
      (fun q => (by cases q)) seen0 le0 ?_ rfl hcr rfl rfl rfl⟩
    · dsimp only
      rw [Safe]
      exact ⟨Or.inr rfl, S⟩
    intro u hu
    have := hx u hu
    have := ob h1 u hu
    unfold X at *
    simp_all
  | wlock h1 h2 h3 =>
    rw [Safe] at S
    obtain ⟨hh, S⟩ := S
    have hh : h = hP := by
      rcases hh with rfl | rfl
      · cases h3
      · rfl
    subst hh
    refine ⟨g, pub, (by exact ⟨fun _ q => q, fun _ q => Or.inl q, ⟨[], (List.append_nil _).symm⟩, fun _ _ => rfl⟩), I.self ⟨s.rng, rfl⟩ S (fun q => kn0 rfl) (fun q => ks0 rfl)
      (fun q => (by cases q)) seen0 le0 ?_ rfl hcr rfl rfl rfl⟩
    intro u hu
    have := hx u hu
    have := ob h1 u hu
    unfold X at *
    simp_all
  | wunlock h1 =>
    rw [Safe] at S
    obtain ⟨rfl, S⟩ := S
    refine ⟨g, pub, (by exact ⟨fun _ q => q, fun _ q => Or.inl q, ⟨[], (List.append_nil _).symm⟩, fun _ _ => rfl⟩), I.self ⟨s.rng, rfl⟩ S (fun q => kn0 rfl) (fun q => ks0 rfl)
      (fun q => (by cases q)) seen0 le0 ?_ rfl hcr rfl rfl rfl⟩
    intro u hu
    have := hx u hu
    unfold X at *
    simp_all
  | lockR h1 h2 =>
    rw [Safe] at S
    obtain ⟨rfl, S⟩ := S
    refine ⟨_, pub, (by exact ⟨fun _ q => q, fun _ q => Or.inl q, ⟨[], (List.append_nil _).symm⟩, fun _ _ => rfl⟩), I.self ⟨s.rng, rfl⟩ S (fun q => (by cases q)) (fun q => (by cases q))
      (fun _ v hv => (by cases hv)) seen0 le0 ?_ rfl hcr rfl rfl rfl⟩
    intro u hu
    have := hx u hu
    have := ob h1 u hu
    unfold X at *
    simp_all
  | unlockR h1 =>
    rw [Safe] at S
    obtain ⟨rfl, S⟩ := S
    refine ⟨_, pub, (by exact ⟨fun _ q => q, fun _ q => Or.inl q, ⟨[], (List.append_nil _).symm⟩, fun _ _ => rfl⟩), I.self ⟨s.rng, rfl⟩ S (fun q => (by cases q)) (fun q => (by cases q))
      (fun q => (by cases q)) seen0 le0 ?_ rfl hcr rfl rfl rfl⟩
    intro u hu
    have := hx u hu
    unfold X at *
    simp_all
  | readN =>
    rw [Safe] at S
    obtain ⟨hh, S⟩ := S
    have hnn : h'.nn = true := by rcases hh with rfl | rfl <;> rfl
    have hrt : h'.rt = false := by rcases hh with rfl | rfl <;> rfl
    obtain ⟨κ, hκ, S⟩ := S s.nNodes (fun v' hv' => kn0 hnn v' hv') I.base.n_le (by omega)
      (fun x hx => (I.own_bounds (List.mem_cons_self) hx).2)
    refine ⟨_, pub, (by exact ⟨fun _ q => q, fun _ q => Or.inl q, ⟨[], (List.append_nil _).symm⟩, fun _ _ => rfl⟩), I.self ⟨s.rng, rfl⟩ S (fun _ v hv => (by cases hv; rfl)) (fun _ => ks0 hnn)
      (fun q => (by rw [hrt] at q; cases q)) le_rfl ?_ hx rfl ?_ rfl rfl rfl⟩
    · rcases hκ with q | q
      · exact q.trans le0
      · exact q.2.2
    · show s.nNodes + (κ + _) ≤ P.B
      rcases hκ with q | q
      · omega
      · have hr := I.refill ⟨_, List.mem_cons_self, q.1⟩
        have hle : (rest.map fun t => t.g.κ).sum ≤ (rest.map fun t => t.g.M).sum := by
          apply List.sum_le_sum
          intro u hu
          exact (I.thr u (by simp [hu])).le
        simp only [List.map_cons, List.sum_cons] at hr
        omega
  | setN =>
    rename_i w
    rw [Safe] at S
    obtain ⟨rfl, v, z, e1, e2, rfl, hvz, hκ, S⟩ := S
    have hv := kn0 rfl v e1
    have hz := ks0 rfl z e2
    have hO : ∀ x ∈ g.O, x < v := by
      intro x hx
      rw [← hv]
      exact (I.own_bounds (List.mem_cons_self) hx).2
    have S := S hO
    have hnn : ∀ u ∈ rest, u.h.nn = false := by
      intro u hu
      have := hx u hu
      unfold X at this
      simp_all
    have hnv := I.base.n_le
    refine ⟨{ g with kn := some (v + 1), κ := g.κ - 1, O := v :: g.O }, pub, (by exact ⟨fun _ q => List.mem_cons_of_mem _ q, fun _ q => Or.inl q, ⟨[], (List.append_nil _).symm⟩, fun _ _ => rfl⟩), I.upd ⟨⟨I.base.memOK.fits, I.base.memOK.size, I.base.memOK.nodes⟩, I.base.loaded,
      I.base.nItems, ?_, ?_, ?_⟩ I.built
      (fun _ _ => rfl) ⟨?_, fun _ v hv => (by cases hv; rfl), fun _ => ks0 rfl,
      fun q => (by cases q), ?_, ?_⟩ ?_ hx ?_ ?_ rfl rfl I.order I.roots⟩
    · show P.n ≤ v + 1; omega
    · show v + 1 ≤ s.nodesSize; omega
    · intro x hx
      apply I.base.zero
      have hx' : (v + 1) * c.L.nodeSize ≤ x := hx
      rw [hv]
      rw [Nat.add_mul] at hx'; omega
    · show Safe P p' hN _ (view c P.n (v :: g.O) s.alloc.data)
      rw [view_take hp (by rw [← hv]; exact I.base.zero)]
      exact S
    · show g.seen ≤ v + 1; omega
    · show g.κ - 1 ≤ g.M; omega
    · intro u hu
      refine (I.thr u (by simp [hu])).other (s' := { s with nNodes := v + 1 }) rfl ?_ ?_ ?_
      · show s.nNodes ≤ v + 1; omega
      · intro q; rw [hnn u hu] at q; cases q
      · intro _; rfl
    · have := I.own
      rw [List.flatMap_cons] at this
      show (v :: g.O ++ _).Perm (List.range' P.n (v + 1 - P.n))
      have e : v + 1 - P.n = (v - P.n) + 1 := by omega
      rw [e, List.range'_concat, List.cons_append]
      rw [hv] at this
      have e2 : P.n + 1 * (v - P.n) = v := by omega
      rw [e2]
      exact (this.cons v).trans (List.perm_append_singleton _ _).symm
    · show v + 1 + (g.κ - 1 + _) ≤ P.B
      omega
  | readSize =>
    rw [Safe] at S
    obtain ⟨hh, S⟩ := S
    have hnn : h'.nn = true := by rcases hh with rfl | rfl <;> rfl
    have hrt : h'.rt = false := by rcases hh with rfl | rfl <;> rfl
    have S := S s.nodesSize (fun v' hv' => ks0 hnn v' hv')
      (fun v hv => by rw [← kn0 hnn v hv]; exact I.base.le_size) I.base.memOK.fits
    exact ⟨_, pub, (by exact ⟨fun _ q => q, fun _ q => Or.inl q, ⟨[], (List.append_nil _).symm⟩, fun _ _ => rfl⟩), I.self ⟨s.rng, rfl⟩ S (fun _ => kn0 hnn) (fun _ v hv => (by cases hv; rfl))
      (fun q => (by rw [hrt] at q; cases q)) seen0 le0 hx rfl hcr rfl rfl rfl⟩
  | growBegin h1 =>
    have S' := S
    rw [Safe] at S
    obtain ⟨hh, S⟩ := S
    have hh : h = hW := by
      rcases hh with rfl | rfl
      · rfl
      · cases h1
    subst hh
    refine ⟨g, pub, (by exact ⟨fun _ q => q, fun _ q => Or.inl q, ⟨[], (List.append_nil _).symm⟩, fun _ _ => rfl⟩), I.self ⟨s.rng, rfl⟩ ?_ (fun q => kn0 rfl) (fun q => ks0 rfl)
      (fun q => (by cases q)) seen0 le0 ?_ rfl hcr rfl rfl rfl⟩
    · dsimp only
      rw [Safe]
      exact ⟨Or.inr rfl, S⟩
    · intro u hu
      exact hx u hu
  | growEnd h1 =>
    rename_i z
    rw [Safe] at S
    obtain ⟨hh, hzr, ⟨z0, e1, hz0⟩, S⟩ := S
    have hh : h = hM := by
      rcases hh with rfl | rfl
      · cases h1
      · rfl
    subst hh
    have hz := ks0 rfl z0 e1
    have hwz : c.L.wrap (z * c.L.nodeSize) = z * c.L.nodeSize := c.L.wrap_eq hzr
    have hge' : s.nodesSize * c.L.nodeSize ≤ z * c.L.nodeSize := Nat.mul_le_mul_right _ (by omega)
    have hle2 : s.nNodes * c.L.nodeSize ≤ s.nodesSize * c.L.nodeSize := Nat.mul_le_mul_right _ I.base.le_size
    have hsz := I.base.memOK.size
    have hdata : (s.alloc.reallocate (z * c.L.nodeSize)).data = s.alloc.data := by
      apply Bytes.ext'; intro x
      unfold Alloc.reallocate
      split
      · rfl
      · show (if x < s.alloc.size then s.alloc.data x else 0) = s.alloc.data x
        split
        · rfl
        · rw [I.base.zero x]; omega
    have hsize : z * c.L.nodeSize ≤ (s.alloc.reallocate (z * c.L.nodeSize)).size := by
      unfold Alloc.reallocate
      split
      · next h8 => omega
      · exact le_rfl
    have hnn : ∀ u ∈ rest, u.h.nn = false := by
      intro u hu
      have := hx u hu
      unfold X at this
      simp_all
    rw [hwz]
    refine ⟨{ g with ks := some z }, pub, (by exact ⟨fun _ q => q, fun _ q => Or.inl q, ⟨[], (List.append_nil _).symm⟩, fun _ _ => (by dsimp only; rw [hdata])⟩), I.upd ⟨⟨hzr, hsize, fun _ => rfl⟩, I.base.loaded,
      I.base.nItems, I.base.n_le, ?_, ?_⟩ I.built (fun x _ => by dsimp only; rw [hdata]) ⟨?_, fun _ => kn0 rfl,
      fun _ v hv => (by cases hv; rfl),
      fun q => (by cases q), seen0, le0⟩ ?_ ?_ I.own hcr rfl rfl I.order I.roots⟩
    · exact I.base.le_size.trans (by rw [hz]; exact hz0)
    · intro x hx
      dsimp only
      rw [hdata]
      exact I.base.zero x hx
    · show Safe P p' hW _ (view c P.n g.O (s.alloc.reallocate (z * c.L.nodeSize)).data)
      rw [hdata]
      exact S
    · intro u hu
      apply (I.thr u (by simp [hu])).other
      · show view c P.n u.g.O (s.alloc.reallocate (z * c.L.nodeSize)).data = _
        rw [hdata]
      · exact le_rfl
      · intro q; rw [hnn u hu] at q; cases q
      · intro _; rfl
    · intro u hu
      exact hx u hu
  | read r r' hf =>
    rw [Safe] at S
    obtain ⟨rfl, S⟩ := S
    have hb : s.bmem.get = s.alloc.data ∧ s.bmem.size = s.alloc.size ∨ P.n = 0 := by
      by_cases h0 : P.n = 0
      · exact Or.inr h0
      · left
        have := I.base.n_le
        have := I.base.le_size
        unfold Idx.bmem
        rw [I.base.memOK.nodes (by omega)]
        exact ⟨rfl, rfl⟩
    have hn1 : P.n * c.L.nodeSize ≤ s.nodesSize * c.L.nodeSize :=
      Nat.mul_le_mul_right _ (I.base.n_le.trans I.base.le_size)
    obtain ⟨_, _, S⟩ := S s.bmem r (by
        rcases hb with q | q
        · rw [q.2]; exact hn1.trans I.base.memOK.size
        · rw [q]; simp) (lt_of_le_of_lt hn1 I.base.memOK.fits) (by
        intro x hx
        rcases hb with q | q
        · rw [q.1, view_item hx]
        · rw [q] at hx; simp at hx)
    exact ⟨g, pub, (by exact ⟨fun _ q => q, fun _ q => Or.inl q, ⟨[], (List.append_nil _).symm⟩, fun _ _ => rfl⟩), I.self ⟨r', rfl⟩ (S _ _ hf) (fun q => (by cases q)) (fun q => (by cases q))
      (fun q => (by cases q)) seen0 le0 hx rfl hcr rfl rfl rfl⟩
  | readErr r hf =>
    rw [Safe] at S
    obtain ⟨rfl, S⟩ := S
    have hb : s.bmem.get = s.alloc.data ∧ s.bmem.size = s.alloc.size ∨ P.n = 0 := by
      by_cases h0 : P.n = 0
      · exact Or.inr h0
      · left
        have := I.base.n_le
        have := I.base.le_size
        unfold Idx.bmem
        rw [I.base.memOK.nodes (by omega)]
        exact ⟨rfl, rfl⟩
    have hn1 : P.n * c.L.nodeSize ≤ s.nodesSize * c.L.nodeSize :=
      Nat.mul_le_mul_right _ (I.base.n_le.trans I.base.le_size)
    obtain ⟨_, S, _⟩ := S s.bmem r (by
        rcases hb with q | q
        · rw [q.2]; exact hn1.trans I.base.memOK.size
        · rw [q]; simp) (lt_of_le_of_lt hn1 I.base.memOK.fits) (by
        intro x hx
        rcases hb with q | q
        · rw [q.1, view_item hx]
        · rw [q] at hx; simp at hx)
    refine ⟨g, pub, (by exact ⟨fun _ q => q, fun _ q => Or.inl q, ⟨[], (List.append_nil _).symm⟩, fun _ _ => rfl⟩), I.self ⟨s.rng, rfl⟩ ?_ (fun q => (by cases q)) (fun q => (by cases q))
      (fun q => (by cases q)) seen0 le0 hx rfl hcr rfl rfl rfl⟩
    dsimp only
    rw [Safe]
    exact S _ hf
  | write ha =>
    rename_i i f a
    rw [Safe] at S
    obtain ⟨rfl, hi, hf, hl, S⟩ := S
    obtain ⟨hni, hiN⟩ := I.own_bounds (List.mem_cons_self) hi
    have hg := (I.base.memOK.getNode (i := i) (lt_of_lt_of_le hiN I.base.le_size)).1
    rw [hg] at ha
    cases ha
    have hN : (i + 1) * c.L.nodeSize ≤ s.nNodes * c.L.nodeSize := Nat.mul_le_mul_right _ hiN
    have hN2 : P.n * c.L.nodeSize ≤ i * c.L.nodeSize := Nat.mul_le_mul_right _ hni
    rw [Nat.add_mul] at hN
    refine ⟨g, pub, (by exact ⟨fun _ q => q, fun _ q => Or.inl q, ⟨[], (List.append_nil _).symm⟩, fun _ hu => view_other hp (I.disjoint hu hi) hni hf⟩), I.upd ⟨⟨I.base.memOK.fits, I.base.memOK.size, I.base.memOK.nodes⟩, I.base.loaded,
      I.base.nItems, I.base.n_le, I.base.le_size, ?_⟩ I.built ?_ ⟨?_, fun q => (by cases q), fun q => (by cases q),
      fun q => (by cases q), seen0, le0⟩ ?_ hx I.own hcr rfl rfl I.order I.roots⟩
    · intro x hx
      have hx' : s.nNodes * c.L.nodeSize ≤ x := hx
      show f s.alloc.data _ x = 0
      rw [hf _ _ _ (by omega)]
      exact I.base.zero x hx
    · intro x hx
      show f s.alloc.data _ x = _
      rw [hf _ _ _ (by omega)]
    · show Safe P p' hR g (view c P.n g.O (f s.alloc.data _))
      rw [view_write hp hi hf hl]
      exact S
    · intro u hu
      apply (I.thr u (by simp [hu])).other
      · exact view_other hp (I.disjoint hu hi) hni hf
      · exact le_rfl
      · intro _; exact ⟨rfl, rfl⟩
      · intro _; rfl
  | writeErr ha =>
    rename_i i f k e
    rw [Safe] at S
    obtain ⟨rfl, hi, hf, hl, S⟩ := S
    obtain ⟨hni, hiN⟩ := I.own_bounds (List.mem_cons_self) hi
    have hg := (I.base.memOK.getNode (i := i) (lt_of_lt_of_le hiN I.base.le_size)).1
    rw [hg] at ha
    cases ha
  | rand r r' hs hb =>
    rw [Safe] at S
    obtain ⟨rfl, _, S⟩ := S
    exact ⟨g, pub, (by exact ⟨fun _ q => q, fun _ q => Or.inl q, ⟨[], (List.append_nil _).symm⟩, fun _ _ => rfl⟩), I.self ⟨r', rfl⟩ (S _ _ (Idx.assignSides_perm _ _ _ hs) hb) (fun q => (by cases q))
      (fun q => (by cases q)) (fun q => (by cases q)) seen0 le0 hx rfl hcr rfl rfl rfl⟩
  | spin r r' hs hb =>
    have S' := S
    rw [Safe] at S
    obtain ⟨rfl, S⟩ := S
    exact ⟨g, pub, (by exact ⟨fun _ q => q, fun _ q => Or.inl q, ⟨[], (List.append_nil _).symm⟩, fun _ _ => rfl⟩), I.self ⟨r', rfl⟩ S' (fun q => (by cases q))
      (fun q => (by cases q)) (fun q => (by cases q)) seen0 le0 hx rfl hcr rfl rfl rfl⟩
  | readRoots =>
    rw [Safe] at S
    obtain ⟨rfl, S⟩ := S
    exact ⟨_, pub, (by exact ⟨fun _ q => q, fun _ q => Or.inl q, ⟨[], (List.append_nil _).symm⟩, fun _ _ => rfl⟩), I.self ⟨s.rng, rfl⟩ (S s.roots) (fun q => (by cases q))
      (fun q => (by cases q)) (fun _ v hv => (by cases hv; rfl)) seen0 le0 hx rfl hcr rfl rfl rfl⟩
  | setRoots =>
    rename_i rs
    rw [Safe] at S
    obtain ⟨rfl, hk, old, new, e1, rfl, e2, S⟩ := S
    have hold := kr0 rfl old e1
    refine ⟨{ g with kr := none, fin := some new }, pub ++ [new], (by exact ⟨fun _ q => q, fun _ _ => Or.inr hk, ⟨new, by dsimp only; rw [hold]⟩, fun _ _ => rfl⟩), I.upd ⟨⟨I.base.memOK.fits, I.base.memOK.size, I.base.memOK.nodes⟩, I.base.loaded,
      I.base.nItems, I.base.n_le, I.base.le_size, I.base.zero⟩ I.built (fun _ _ => rfl) ⟨S, fun q => (by cases q),
      fun q => (by cases q), fun _ v hv => (by cases hv), seen0, le0⟩ ?_ hx I.own hcr rfl rfl ?_ ?_⟩
    · intro u hu
      refine (I.thr u (by simp [hu])).other (s' := { s with roots := old ++ new }) rfl le_rfl
        (fun _ => ⟨rfl, rfl⟩) ?_
      intro q
      have := hx u hu
      unfold X at this
      simp_all
    · have := I.order
      rw [List.filterMap_cons] at this ⊢
      rw [e2] at this
      exact (this.append_right [new]).trans (List.perm_append_singleton _ _)
    · show old ++ new = _
      rw [← hold, I.roots]
      simp

end Conc
end Annoy
