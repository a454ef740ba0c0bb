import Verif.Proof.ConcInv
import Verif.Spec.Conc
import Mathlib.Data.List.Nodup
/-!
Runs of `Build` with several workers: the invariant along every execution, the state when all workers are
done, and progress.
-/
namespace Annoy
namespace Conc
variable {c : Cfg}

/-- A configuration the invariant holds for. -/
def Good (P : Par) (d0 : Bytes) (x : Conf c) : Prop :=
  ∃ ts pub, x.ths = ts.map (fun t => (t.h, t.p)) ∧ Inv P d0 x.idx ts pub

/-- Workers keep the nodes they own. -/
def Keeps (ts ts' : List (Th c)) : Prop := List.Forall₂ (fun t t' => ∀ x ∈ t.g.O, x ∈ t'.g.O) ts ts'

theorem Keeps.refl (ts : List (Th c)) : Keeps ts ts := List.forall₂_same.2 fun _ _ _ h => h

theorem Keeps.trans {a b d : List (Th c)} (h : Keeps a b) (h' : Keeps b d) : Keeps a d := by
  induction h generalizing d with
  | nil => cases h'; exact .nil
  | cons h1 _ ih => cases h' with | cons h2 h3 => exact .cons (fun x hx => h2 x (h1 x hx)) (ih h3)

theorem Inv.conf_step (hc : c.WF) {P : Par} {d0 : Bytes} {x y : Conf c} {ts : List (Th c)}
    {pub : List (List Nat)} (e : x.ths = ts.map (fun t => (t.h, t.p))) (I : Inv P d0 x.idx ts pub) (st : Step x y) :
    ∃ ts' pub', y.ths = ts'.map (fun t => (t.h, t.p)) ∧ Inv P d0 y.idx ts' pub' ∧ Keeps ts ts' := by
  cases st with
  | mk pre post st =>
    rename_i s s' h h' p p'
    dsimp only at e I
    obtain ⟨pre', rest', rfl, e1, e2⟩ := List.append_eq_map_iff.1 e
    obtain ⟨t, post', rfl, e3, e4⟩ := List.map_eq_cons_iff.1 e2
    have hperm : (pre' ++ t :: post').Perm (t :: (pre' ++ post')) := List.perm_middle
    have I' := I.perm hperm
    have ho : (pre ++ post).map Prod.fst = (pre' ++ post').map Th.h := by
      rw [← e1, ← e4]; simp [Function.comp_def]
    rw [ho] at st
    injection e3 with e5 e6
    subst e5 e6
    obtain ⟨g', pub', hO, I2⟩ := I'.step hc st
    refine ⟨pre' ++ ⟨h', p', g'⟩ :: post', pub', ?_, I2.perm List.perm_middle.symm, ?_⟩
    · simp [e1, e4]
    · exact List.rel_append (Keeps.refl pre') (.cons hO.own (Keeps.refl post'))

theorem Good.step (hc : c.WF) {P : Par} {d0 : Bytes} {x y : Conf c} (hx : Good P d0 x) (st : Step x y) :
    Good P d0 y := by
  obtain ⟨ts, pub, e, I⟩ := hx
  obtain ⟨ts', pub', h1, h2, _⟩ := I.conf_step hc e st
  exact ⟨ts', pub', h1, h2⟩

theorem Inv.conf_steps (hc : c.WF) {P : Par} {d0 : Bytes} {x y : Conf c} {ts : List (Th c)}
    {pub : List (List Nat)} (e : x.ths = ts.map (fun t => (t.h, t.p))) (I : Inv P d0 x.idx ts pub) (st : Steps x y) :
    ∃ ts' pub', y.ths = ts'.map (fun t => (t.h, t.p)) ∧ Inv P d0 y.idx ts' pub' ∧ Keeps ts ts' := by
  induction st with
  | refl => exact ⟨ts, pub, e, I, Keeps.refl ts⟩
  | tail _ st ih =>
    obtain ⟨ts1, pub1, e1, I1, k1⟩ := ih
    obtain ⟨ts2, pub2, e2, I2, k2⟩ := I1.conf_step hc e1 st
    exact ⟨ts2, pub2, e2, I2, k1.trans k2⟩

theorem Good.steps (hc : c.WF) {P : Par} {d0 : Bytes} {x y : Conf c} (hx : Good P d0 x) (st : Steps x y) :
    Good P d0 y := by
  induction st with
  | refl => exact hx
  | tail _ st ih => exact ih.step hc st

/-! ### all workers done -/

theorem lift_perm {α β : Type*} (f : α → Option β) (pub : List β) :
    ∀ ts : List α, pub.Perm (ts.filterMap f) → (∀ t ∈ ts, (f t).isSome) →
      ∃ ts' : List α, ts.Perm ts' ∧ pub.map some = ts'.map f := by
  induction pub with
  | nil =>
    intro ts h hs
    have h0 := h.symm.eq_nil
    cases ts with
    | nil => exact ⟨[], List.Perm.refl _, rfl⟩
    | cons t ts =>
      have := hs t (by simp)
      rw [List.filterMap_cons] at h0
      cases hf : f t with
      | none => rw [hf] at this; cases this
      | some v => rw [hf] at h0; cases h0
  | cons b pub ih =>
    intro ts h hs
    obtain ⟨t, ht, hb⟩ := List.mem_filterMap.1 (h.mem_iff.1 (List.mem_cons_self (a := b) (l := pub)))
    obtain ⟨u, v, rfl⟩ := List.append_of_mem ht
    have hp : (u ++ t :: v).Perm (t :: (u ++ v)) := List.perm_middle
    have h2 := h.trans (hp.filterMap f)
    rw [List.filterMap_cons, hb] at h2
    obtain ⟨ts', q1, q2⟩ := ih (u ++ v) (List.perm_cons b |>.1 h2) (fun x hx => hs x (by
      simp only [List.mem_append, List.mem_cons] at hx ⊢; tauto))
    exact ⟨t :: ts', hp.trans (q1.cons t), by simp [hb, q2]⟩

/-- The number of published roots when all are done. -/
def shareOf (t : Th c) : Nat := t.g.trees.toNat

/-- The products of all workers together. -/
theorem gather (hL : c.L.Ok c.C.sz) {P : Par} {d : Bytes} (ts : List (Th c)) :
    ∀ pub : List (List Nat), pub.map some = ts.map (fun t => t.g.fin) →
    (∀ t ∈ ts, ∃ rs, t.g.fin = some rs ∧ Post c P t.g (view c P.n t.g.O d) rs) →
    (ts.flatMap fun t => t.g.O).Nodup →
    pub.flatten.Nodup ∧ (∀ x ∈ pub.flatten, x ∈ ts.flatMap fun t => t.g.O) ∧
    (∀ x ∈ ts.flatMap fun t => t.g.O, ∃ r ∈ pub.flatten, x ≤ r) ∧
    ((∀ t ∈ ts, t.g.trees ≠ -1) → pub.flatten.length = (ts.map shareOf).sum) ∧
    (∀ x ∈ pub.flatten, c.L.RootCount P.n (ndAt c.L d x)) ∧
    (∀ x ∈ ts.flatMap fun t => t.g.O, Downward c.L d P.n x) ∧
    (∀ D, (∀ x ∈ ts.flatMap fun t => t.g.O, x < D) → (c.L.Deep D ∨ P.n ≤ c.L.K) →
      ∃ F : List Tree, F.map Tree.root = pub.flatten ∧ (∀ t ∈ F, SidedRoot c d P.n P.live t) ∧
      (F.flatMap Tree.inner).Perm (ts.flatMap fun t => t.g.O)) := by
  have hp := hL.nodeSize_pos
  induction ts with
  | nil =>
    intro pub hp2 _ _
    have : pub = [] := by simpa using hp2
    subst this
    exact ⟨by simp, by simp, by simp, by simp, by simp, by simp, fun D _ _ => ⟨[], by simp⟩⟩
  | cons t ts ih =>
    intro pub hp2 hpost hnd
    cases pub with
    | nil => simp at hp2
    | cons rs pub =>
      simp only [List.map_cons, List.cons.injEq] at hp2
      rw [List.flatMap_cons, List.nodup_append] at hnd
      obtain ⟨rs', e', Q⟩ := hpost t (by simp)
      rw [← hp2.1] at e'; injection e' with e'; subst e'
      obtain ⟨h1, h2, h3, h4, h7, h6, h5⟩ := ih pub hp2.2 (fun u hu => hpost u (by simp [hu])) hnd.2.1
      rw [List.flatten_cons, List.flatMap_cons]
      refine ⟨?_, ?_, ?_, ?_, ?_, ?_, ?_⟩
      · rw [List.nodup_append]
        refine ⟨Q.nodup, h1, ?_⟩
        intro a ha b hb
        exact hnd.2.2 a (Q.sub a ha) b (h2 b hb)
      · intro x hx
        rw [List.mem_append] at hx ⊢
        rcases hx with hx | hx
        · exact Or.inl (Q.sub x hx)
        · exact Or.inr (h2 x hx)
      · intro x hx
        rw [List.mem_append] at hx
        rcases hx with hx | hx
        · obtain ⟨r, q1, q2⟩ := Q.top x hx
          exact ⟨r, by simp [q1], q2⟩
        · obtain ⟨r, q1, q2⟩ := h3 x hx
          exact ⟨r, List.mem_append_right _ q1, q2⟩
      · intro hne
        rw [List.length_append, h4 (fun u hu => hne u (by simp [hu])), Q.count (hne t (by simp))]
        simp [shareOf]
      · intro x hx
        rw [List.mem_append] at hx
        rcases hx with hx | hx
        · rw [← SameNode.nd hL fun j hj => view_own hp (Q.sub x hx) hj]
          exact Q.counted x hx
        · exact h7 x hx
      · intro x hx
        rw [List.mem_append] at hx
        rcases hx with hx | hx
        · exact (Q.downward x hx).congr hL fun j hj => view_own hp hx hj
        · exact h6 x hx
      · intro D hD hor
        obtain ⟨F1, a1, a2, a3⟩ := Q.forest D (fun x hx => hD x (by simp [hx])) hor
        obtain ⟨F2, b1, b2, b3⟩ := h5 D (fun x hx => hD x (by rw [List.mem_append]; exact Or.inr hx)) hor
        refine ⟨F1 ++ F2, by rw [List.map_append, a1, b1], ?_, ?_⟩
        · intro u hu
          rw [List.mem_append] at hu
          rcases hu with hu | hu
          · apply (a2 u hu).congr hL
            · intro i hi j hj
              exact view_item (Idx.node_lt hi hj)
            · intro i hi j hj
              exact view_own hp (a3.mem_iff.1 (List.mem_flatMap.2 ⟨u, hu, hi⟩)) hj
          · exact b2 u hu
        · rw [List.flatMap_append]
          exact a3.append b3

/-- What is left when all workers are done. -/
theorem Inv.finished (hc : c.WF) {P : Par} {d0 : Bytes} {s : Idx c} {ts : List (Th c)}
    {pub : List (List Nat)} (I : Inv P d0 s ts pub) (hd : ∀ t ∈ ts, t.p = .done) :
    (∀ r ∈ s.roots, P.n ≤ r ∧ r < s.nNodes) ∧
    (s.nNodes ≠ P.n → s.nNodes - 1 ∈ s.roots) ∧
    s.roots.Nodup ∧
    (∀ t ∈ ts, t.g.trees = -1 → 2 * P.n ≤ s.nNodes) ∧
    ((∀ t ∈ ts, t.g.trees ≠ -1) → s.roots.length = (ts.map shareOf).sum) ∧
    (∀ r ∈ s.roots, c.L.RootCount P.n (ndAt c.L s.alloc.data r)) ∧
    (∀ x, P.n ≤ x → x < s.nNodes → Downward c.L s.alloc.data P.n x) ∧
    ((c.L.Deep s.nNodes ∨ P.n ≤ c.L.K) → ∃ F : List Tree, F.map Tree.root = s.roots ∧
      (∀ t ∈ F, SidedRoot c s.alloc.data P.n P.live t) ∧
      (F.flatMap Tree.inner).Perm (List.range' P.n (s.nNodes - P.n))) := by
  have hL := hc.layout
  have hp := hL.nodeSize_pos
  have hpost : ∀ t ∈ ts, ∃ rs, t.g.fin = some rs ∧ Post c P t.g (view c P.n t.g.O s.alloc.data) rs := by
    intro t ht
    have := (I.thr t ht).safe
    rw [hd t ht, Safe] at this
    exact this.2
  obtain ⟨ts', hp1, hp2⟩ := lift_perm (fun t : Th c => t.g.fin) pub ts I.order (fun t ht => by
    obtain ⟨rs, e, _⟩ := hpost t ht
    simp [e])
  have I' := I.perm hp1
  obtain ⟨h1, h2, h3, h4, h7, h6, h5⟩ := gather hL ts' pub hp2 (fun t ht => hpost t (hp1.mem_iff.2 ht))
    (I'.own.nodup_iff.2 List.nodup_range')
  have hn := I.base.n_le
  have hmem : ∀ x, x ∈ (ts'.flatMap fun t => t.g.O) ↔ P.n ≤ x ∧ x < s.nNodes := by
    intro x
    rw [I'.own.mem_iff, List.mem_range'_1]
    omega
  have hlt : ∀ r ∈ s.roots, P.n ≤ r ∧ r < s.nNodes := by
    intro r hr
    rw [I.roots] at hr
    exact (hmem r).1 (h2 r hr)
  refine ⟨hlt, ?_, ?_, ?_, ?_, by rw [I.roots]; exact h7, fun x q1 q2 => h6 x ((hmem x).2 ⟨q1, q2⟩), ?_⟩
  · intro hne
    obtain ⟨r, q1, q2⟩ := h3 (s.nNodes - 1) ((hmem _).2 (by omega))
    rw [← I.roots] at q1
    have := (hlt r q1).2
    have : s.nNodes - 1 = r := by omega
    rw [this]; exact q1
  · rw [I.roots]; exact h1
  · intro t ht htr
    obtain ⟨rs, e, Q⟩ := hpost t ht
    exact (Q.full htr).trans (I.thr t ht).seen
  · intro hne
    rw [I.roots, h4 (fun t ht => hne t (hp1.mem_iff.2 ht)), (hp1.map _).sum_nat]
  · intro hor
    obtain ⟨F, a1, a2, a3⟩ := h5 s.nNodes (fun x hx => ((hmem x).1 hx).2) hor
    exact ⟨F, by rw [I.roots, a1], a2, a3.trans I'.own⟩

/-! ### shares -/

theorem share_nat (T W w : Nat) : share (T : Int) W w = (((T + w) / W : Nat) : Int) := by
  unfold share
  rw [if_neg (by omega)]
  simp

/-- The shares add up to the trees asked for. -/
theorem share_sum (W : Nat) (hW : 0 < W) (T : Nat) :
    ((List.range W).map fun w => (T + w) / W).sum = T := by
  induction T with
  | zero =>
    have : (List.range W).map (fun w => (0 + w) / W) = (List.range W).map fun _ => 0 := by
      apply List.map_congr_left
      intro w hw
      rw [Nat.zero_add]
      exact Nat.div_eq_of_lt (List.mem_range.1 hw)
    rw [this]
    simp
  | succ T ih =>
    obtain ⟨V, rfl⟩ : ∃ V, W = V + 1 := ⟨W - 1, by omega⟩
    rw [List.range_succ, List.map_append, List.sum_append]
    rw [List.range_succ_eq_map, List.map_cons, List.sum_cons, List.map_map] at ih
    have e : (List.range V).map (fun w => (T + 1 + w) / (V + 1)) =
        (List.range V).map ((fun w => (T + w) / (V + 1)) ∘ Nat.succ) := by
      apply List.map_congr_left
      intro w _
      show (T + 1 + w) / (V + 1) = (T + (w + 1)) / (V + 1)
      congr 1
      omega
    rw [e]
    simp only [List.map_cons, List.map_nil, List.sum_cons, List.sum_nil]
    have e2 : (T + 1 + V) / (V + 1) = T / (V + 1) + 1 := by
      have : T + 1 + V = T + (V + 1) := by omega
      rw [this, Nat.add_div_right _ (by omega)]
    rw [e2]
    simp only [Nat.add_zero] at ih ⊢
    omega

theorem share_neg {trees : Int} (ht : trees < 0) {W w : Nat} (hw : w < W) : (share trees W w).toNat = 0 := by
  unfold share
  split
  · rfl
  · next h =>
    have : (trees + w) / (W : Int) ≤ 0 := by
      have h1 : (trees + w) / (W : Int) < 1 := by
        apply Int.ediv_lt_of_lt_mul (by omega)
        omega
      omega
    omega

theorem share_ge {trees : Int} (ht : 0 ≤ trees) {W w : Nat} : 0 ≤ share trees W w := by
  obtain ⟨T, rfl⟩ := Int.eq_ofNat_of_zero_le ht
  rw [share_nat]
  exact Int.natCast_nonneg _

/-! ### the start -/

/-- Nodes a build with several workers may use. -/
def room (n : Nat) (live : List Nat) (trees : Int) (W : Nat) : Nat :=
  if 0 ≤ trees then n + trees.toNat * Idx.cap live.length else 2 * n + W * Idx.cap live.length

/-- Ghost state of a worker just started. -/
def g0 (k : Nat) (sh : Int) : G where
  κ := if sh = -1 then 0 else sh.toNat * k
  M := if sh = -1 then k else sh.toNat * k
  trees := sh
  O := []
  kn := none
  ks := none
  kr := none
  seen := 0
  fin := none

theorem sum_map_le (l : List Nat) (f : Nat → Nat) (k : Nat) (h : ∀ x ∈ l, f x ≤ k) :
    (l.map f).sum ≤ l.length * k := by
  induction l with
  | nil => simp
  | cons a l ih =>
    have := ih (fun x hx => h x (by simp [hx]))
    have := h a (by simp)
    simp only [List.map_cons, List.sum_cons, List.length_cons, Nat.add_mul]
    omega

theorem sum_map_mul (l : List Nat) (f : Nat → Nat) (k : Nat) : (l.map fun x => f x * k).sum = (l.map f).sum * k := by
  induction l with
  | nil => simp
  | cons a l ih => simp only [List.map_cons, List.sum_cons, Nat.add_mul, ih]

theorem start_inv (hc : c.WF) {s : Idx c} {m : Nat → Option (List c.N.V)} {n : Nat} (hs : s.BInv n)
    (hsl : s.Slots m n) (hn : s.nNodes = n) (hb : s.built = false) (hr : s.roots = []) (trees : Int)
    (W : Nat) (hfit : c.L.Fits (room n (liveOf m n) trees W)) :
    ∃ ts, (startWorkers s trees W).ths = ts.map (fun t => (t.h, t.p)) ∧
      Inv ⟨n, room n (liveOf m n) trees W, liveOf m n, Total c, (List.range W).map (share trees W)⟩ s.alloc.data s ts [] ∧
      ∀ t ∈ ts, t.g.fin = none := by
  have hL := hc.layout
  have hp := hL.nodeSize_pos
  have h3 := hL.three_le
  set k := Idx.cap (liveOf m n).length with hk
  have hk1 : 1 ≤ k := le_max_left _ _
  set P : Par := ⟨n, room n (liveOf m n) trees W, liveOf m n, Total c, (List.range W).map (share trees W)⟩ with hP
  set T0 : Nat → Th c := fun w => ⟨hF, Prog.worker n (share trees W w), g0 k (share trees W w)⟩ with hT0
  -- the two sums
  have hκ : n + ((List.range W).map fun w => (g0 k (share trees W w)).κ).sum ≤ room n (liveOf m n) trees W := by
    unfold room
    rw [← hk]
    by_cases ht : 0 ≤ trees
    · rw [if_pos ht]
      obtain ⟨T, rfl⟩ := Int.eq_ofNat_of_zero_le ht
      have : (List.range W).map (fun w => (g0 k (share (T : Int) W w)).κ)
          = (List.range W).map fun w => (T + w) / W * k := by
        apply List.map_congr_left
        intro w _
        unfold g0
        dsimp only
        rw [share_nat, if_neg (by have := Int.natCast_nonneg ((T + w) / W); omega), Int.toNat_natCast]
      erw [this, sum_map_mul]
      by_cases hW : 0 < W
      · rw [share_sum W hW]; simp
      · have : W = 0 := by omega
        subst this
        simp
    · rw [if_neg ht]
      have : (List.range W).map (fun w => (g0 k (share trees W w)).κ) = (List.range W).map fun _ => 0 := by
        apply List.map_congr_left
        intro w hw
        unfold g0
        dsimp only
        rw [share_neg (by omega) (List.mem_range.1 hw)]
        simp
      rw [this]
      simp
      omega
  have hMs : trees < 0 → ((List.range W).map fun w => (g0 k (share trees W w)).M).sum ≤ W * k := by
    intro ht
    have := sum_map_le (List.range W) (fun w => (g0 k (share trees W w)).M) k (by
      intro w hw
      unfold g0
      dsimp only
      rw [share_neg (by omega) (List.mem_range.1 hw)]
      split <;> omega)
    simpa using this
  have hneg : ∀ w, share trees W w = -1 → trees < 0 := by
    intro w hw
    by_contra hcon
    have := share_ge (trees := trees) (by omega) (W := W) (w := w)
    omega
  have hview : ∀ i, i < n → ndAt c.L s.alloc.data i = ndAt c.L (view c n [] s.alloc.data) i := by
    intro i hi
    apply SameNode.nd hL
    intro j hj
    exact (view_item (Idx.node_lt hi hj)).symm
  have hready : ∀ sh, Ready c P (g0 k sh) (view c n [] s.alloc.data) [] := by
    intro sh
    refine ⟨?_, ?_, ?_, ?_, ?_, rfl, by simp [g0], by simp, by simp [g0], by simp, by simp, by simp [g0], ?_⟩
    · intro i hi hO j hj
      rw [view_apply, if_neg]
      have hi' : n ≤ i := hi
      have : n * c.L.nodeSize ≤ i * c.L.nodeSize := Nat.mul_le_mul_right _ hi'
      simp
      omega
    · show liveOf m n = (List.range n).filter _
      unfold liveOf
      apply List.filter_congr
      intro i hi
      rw [← hview i (List.mem_range.1 hi), hsl.nd i (List.mem_range.1 hi)]
      cases (m i).isSome <;> simp
    · intro x hx
      obtain ⟨h1, h2⟩ := mem_liveOf.1 hx
      rw [← hview x h1, hsl.nd x h1, if_pos h2]
    · intro h1 h2
      have h2' : c.L.K < n := h2
      rw [← hview 0 (by omega)]
      exact hsl.lone hL h1 h2
    · intro h1
      by_contra hcon
      have hcon' : ¬ n ≤ c.L.K := hcon
      have : n - 1 ∈ liveOf m n := mem_liveOf.2 ⟨by omega, hsl.top (by omega)⟩
      have h1' : liveOf m n = [] := h1
      rw [h1'] at this
      simp at this
    · intro D _ _
      exact ⟨[], by simp [g0]⟩
  refine ⟨(List.range W).map T0, ?_, ?_, ?_⟩
  · unfold startWorkers
    rw [List.map_map, hs.nItems]
    rfl
  · refine ⟨hs, hb, fun _ _ => rfl, ?_, ?_, ?_, ?_, ?_, ?_, ?_, ?_⟩
    · intro t ht
      obtain ⟨w, hw, rfl⟩ := List.mem_map.1 ht
      refine ⟨?_, fun q => (by cases q), fun q => (by cases q), fun q => (by cases q), Nat.zero_le _, ?_⟩
      · show Safe P (Prog.thread P.n (share trees W w) _ []) hF (g0 k (share trees W w)) (view c n [] s.alloc.data)
        apply thread_safe hc P hfit id (share trees W w)
        · intro h
          show 2 * n ≤ room n (liveOf m n) trees W
          unfold room
          rw [if_neg (by have := hneg w h; omega)]
          omega
        · exact hready _
        · rfl
        · intro h
          refine ⟨by simp, by simp; omega, ?_⟩
          simp only [List.length_nil, Nat.sub_zero]
          unfold g0
          dsimp only
          rw [if_neg h]
        · intro h
          refine ⟨by simp, by simp only [List.length_nil]; show n < _; omega, ?_⟩
          unfold g0
          dsimp only
          rw [if_pos h]
      · show (g0 k (share trees W w)).κ ≤ (g0 k (share trees W w)).M
        unfold g0
        dsimp only
        split <;> omega
    · rw [List.map_map]
      rw [List.pairwise_map]
      apply List.pairwise_of_forall
      intro a b
      show X hF hF
      simp [X]
    · show (((List.range W).map T0).flatMap fun t => t.g.O).Perm _
      show (((List.range W).map T0).flatMap fun t => t.g.O).Perm (List.range' n (s.nNodes - n))
      rw [hn]
      simp [List.flatMap_map, hT0, g0]
    · rw [List.map_map]
      show s.nNodes + _ ≤ _
      rw [hn]
      exact hκ
    · rintro ⟨t, ht, htr⟩
      obtain ⟨w, hw, rfl⟩ := List.mem_map.1 ht
      have h1 := hneg w htr
      rw [List.map_map]
      have := hMs h1
      show 2 * n + ((List.range W).map fun w => (g0 k (share trees W w)).M).sum ≤ room n (liveOf m n) trees W + 1
      unfold room
      rw [if_neg (by omega), ← hk]
      omega
    · rw [List.map_map]; exact List.Perm.refl _
    · simp [List.filterMap_map, hT0, g0, Function.comp_def]
    · simp [hr]
  · intro t ht
    obtain ⟨w, -, rfl⟩ := List.mem_map.1 ht
    rfl

theorem start_good (hc : c.WF) {s : Idx c} {m : Nat → Option (List c.N.V)} {n : Nat} (hs : s.BInv n)
    (hsl : s.Slots m n) (hn : s.nNodes = n) (hb : s.built = false) (hr : s.roots = []) (trees : Int)
    (W : Nat) (hfit : c.L.Fits (room n (liveOf m n) trees W)) :
    Good ⟨n, room n (liveOf m n) trees W, liveOf m n, Total c, (List.range W).map (share trees W)⟩ s.alloc.data (startWorkers s trees W) := by
  obtain ⟨ts, h1, h2, -⟩ := start_inv hc hs hsl hn hb hr trees W hfit
  exact ⟨ts, [], h1, h2⟩

/-- Room needed by `Build` with several workers. -/
def multiBound (n : Nat) (trees : Int) (W : Nat) : Nat :=
  if 0 ≤ trees then n + trees.toNat * (2 * n + 2) else 4 * n + W * (4 * n + 2)

theorem room_le (n : Nat) (m : Nat → Option α) (trees : Int) (W : Nat) :
    room n (liveOf m n) trees W ≤ multiBound n trees W := by
  have hlive := liveOf_length_le m n
  have hcap : Idx.cap (liveOf m n).length ≤ 2 * n + 1 := by unfold Idx.cap; omega
  unfold room multiBound
  split
  · have : trees.toNat * Idx.cap (liveOf m n).length ≤ trees.toNat * (2 * n + 2) :=
      Nat.mul_le_mul_left _ (by omega)
    omega
  · have : W * Idx.cap (liveOf m n).length ≤ W * (4 * n + 2) := Nat.mul_le_mul_left _ (by omega)
    omega

/-- The state when all workers are done. -/
theorem multi_grown (hc : c.WF) {s s1 : Idx c} {m : Nat → Option (List c.N.V)} {n : Nat}
    (hs : s.ItemInv m n) (hb : s.built = false) (hr : s.roots = []) (trees : Int) (W : Nat)
    (hfit : c.L.Fits (multiBound n trees W)) (h1 : s.buildStart = .ok s1) {x : Conf c}
    (st : Steps (startWorkers s1 trees W) x) (hf : x.Finished) :
    x.idx.Grown m n ∧ x.idx.nNodes + x.idx.roots.length ≤ multiBound n trees W ∧ x.idx.roots.Nodup ∧
      (0 ≤ trees → 0 < W → x.idx.roots.length = trees.toNat) ∧
      (trees = -1 → 0 < W → 2 * n ≤ x.idx.nNodes) := by
  have hL := hc.layout
  obtain ⟨s1', hstart, hinv1, hsl1, hn1, hb1, hr1, _, hitems1, hgaps1, hpre⟩ := Idx.buildStart_spec hc hs hb
  rw [h1] at hstart
  injection hstart with e
  subst e
  have hg := start_good hc hinv1 hsl1 hn1 hb1 (hr1.trans hr) trees W (hfit.mono (room_le n m trees W))
  obtain ⟨ts, pub, ex, I⟩ := hg.steps hc st
  have hd : ∀ t ∈ ts, t.p = .done := by
    intro t ht
    have : (t.h, t.p) ∈ x.ths := by rw [ex]; exact List.mem_map_of_mem (f := fun t : Th c => (t.h, t.p)) ht
    exact hf _ this
  obtain ⟨F1, F2, F3, F4, F5, F8, F7, F6⟩ := I.finished hc hd
  have hsh : ∀ t ∈ ts, ∃ w < W, t.g.trees = share trees W w := by
    intro t ht
    have := I.shares.mem_iff.1 (List.mem_map_of_mem (f := fun t : Th c => t.g.trees) ht)
    obtain ⟨w, hw, e⟩ := List.mem_map.1 this
    exact ⟨w, List.mem_range.1 hw, e.symm⟩
  have hcount : 0 ≤ trees → 0 < W → x.idx.roots.length = trees.toNat := by
    intro ht hW
    rw [F5 (by
      intro t ht'
      obtain ⟨w, _, e⟩ := hsh t ht'
      have := share_ge ht (W := W) (w := w)
      omega)]
    obtain ⟨T, rfl⟩ := Int.eq_ofNat_of_zero_le ht
    have : ts.map shareOf = (ts.map fun t => t.g.trees).map Int.toNat := by
      rw [List.map_map]; rfl
    rw [this, ((I.shares).map _).sum_nat]
    show (((List.range W).map (share (T : Int) W)).map Int.toNat).sum = _
    rw [List.map_map]
    have : (Int.toNat ∘ share (T : Int) W) = fun w => (T + w) / W := by
      funext w
      show (share (T : Int) W w).toNat = _
      rw [share_nat, Int.toNat_natCast]
    rw [this, share_sum W hW]
    rfl
  have hn := I.base.n_le
  have hcr := I.credit
  have hlen : x.idx.roots.length ≤ x.idx.nNodes - n := by
    have := (List.subperm_of_subset F3 (l₂ := List.range' n (x.idx.nNodes - n)) (by
      intro r hr
      have := F1 r hr
      have h2 : n ≤ r := this.1
      exact List.mem_range'_1.2 (by omega))).length_le
    simpa using this
  have hroom := room_le n m trees W
  have hlive := liveOf_length_le m n
  have hcap : Idx.cap (liveOf m n).length ≤ 2 * n + 1 := by unfold Idx.cap; omega
  have hBn : x.idx.nNodes ≤ room n (liveOf m n) trees W := by
    have : x.idx.nNodes + _ ≤ room n (liveOf m n) trees W := hcr
    omega
  have hit : ∀ y, y < n * c.L.nodeSize → x.idx.alloc.data y = s1.alloc.data y := I.items
  refine ⟨⟨I.base, hs.bound, hs.top, ?_, ?_, F1, ?_, ?_, F8, F7, F6, hpre.congr hit⟩, ?_, F3, hcount, ?_⟩
  · intro i v hi
    exact (hitems1 i v hi).congr hL fun j hj => hit _ (Idx.node_lt (hs.bound i v hi) hj)
  · intro i hi hmi j hj hj'
    rw [hit _ (Idx.node_lt hi hj)]
    exact hgaps1 i hi hmi j hj hj'
  · intro hne
    apply F2
    intro hcon
    have hcon' : x.idx.nNodes = n := hcon
    rw [hcon', Nat.sub_self] at hlen
    exact hne (List.length_eq_zero_iff.1 (by omega))
  · intro hnil
    by_contra hcon
    have := F2 hcon
    rw [hnil] at this
    simp at this
  · unfold multiBound
    unfold room at hBn
    by_cases ht : 0 ≤ trees
    · rw [if_pos ht] at hBn ⊢
      have hl : x.idx.roots.length ≤ trees.toNat := by
        by_cases hW : 0 < W
        · rw [hcount ht hW]
        · have : ts = [] := by
            have h0 := I.shares.length_eq
            have e0 : W = 0 := by omega
            simp [e0] at h0
            exact h0
          subst this
          have := F5 (by simp)
          simp at this
          rw [this]; simp
      have e : trees.toNat * (2 * n + 2) = trees.toNat * (2 * n + 1) + trees.toNat := by ring
      have : trees.toNat * Idx.cap (liveOf m n).length ≤ trees.toNat * (2 * n + 1) :=
        Nat.mul_le_mul_left _ hcap
      omega
    · rw [if_neg ht] at hBn ⊢
      have : W * Idx.cap (liveOf m n).length ≤ W * (2 * n + 1) := Nat.mul_le_mul_left _ hcap
      have e : W * (4 * n + 2) = 2 * (W * (2 * n + 1)) := by ring
      omega
  · intro ht hW
    have h0 : (-1 : Int) ∈ (List.range W).map (share trees W) := by
      apply List.mem_map.2
      exact ⟨0, List.mem_range.2 hW, by unfold share; rw [if_pos ht]⟩
    have := I.shares.mem_iff.2 h0
    obtain ⟨t, ht', e⟩ := List.mem_map.1 this
    exact F4 t ht' e

/-- All workers together never allocate more than their shares of the room. -/
theorem multi_room (hc : c.WF) {s s1 : Idx c} {m : Nat → Option (List c.N.V)} {n : Nat}
    (hs : s.ItemInv m n) (hb : s.built = false) (hr : s.roots = []) (trees : Int) (W : Nat)
    (hfit : c.L.Fits (multiBound n trees W)) (h1 : s.buildStart = .ok s1) {x : Conf c}
    (st : Steps (startWorkers s1 trees W) x) : x.idx.nNodes ≤ room n (liveOf m n) trees W := by
  obtain ⟨s1', hstart, hinv1, hsl1, hn1, hb1, hr1, -⟩ := Idx.buildStart_spec hc hs hb
  rw [h1] at hstart
  injection hstart with e
  subst e
  have hg := start_good hc hinv1 hsl1 hn1 hb1 (hr1.trans hr) trees W (hfit.mono (room_le n m trees W))
  obtain ⟨ts, pub, ex, I⟩ := hg.steps hc st
  have : x.idx.nNodes + _ ≤ room n (liveOf m n) trees W := I.credit
  omega

/-- The nodes of `Build` with the multi worker policy, root copies not counted. -/
theorem buildsMulti_room (hc : c.WF) {s s' : Idx c} {m : Nat → Option (List c.N.V)} {n : Nat}
    (hs : s.ItemInv m n) (hb : s.built = false) (hr : s.roots = []) (trees : Int) (W : Nat)
    (hfit : c.L.Fits (multiBound n trees W)) (h : s.BuildsMulti trees W s') :
    s'.nNodes ≤ room n (liveOf m n) trees W + s'.roots.length := by
  obtain ⟨s1, x, h1, st, hf, h2⟩ := h
  obtain ⟨G, g1, -⟩ := multi_grown hc hs hb hr trees W hfit h1 st hf
  obtain ⟨s6, F1, F2, F3, _⟩ := Idx.buildFinish_spec hc G (hfit.mono g1)
  rw [h2] at F1
  injection F1 with e
  subst e
  have := multi_room hc hs hb hr trees W hfit h1 st
  rw [F2.nNodes, F3]
  omega

/-- `Build` with the multi worker policy. -/
theorem buildsMulti_spec (hc : c.WF) {s s' : Idx c} {m : Nat → Option (List c.N.V)} {n : Nat}
    (hs : s.ItemInv m n) (hb : s.built = false) (hr : s.roots = []) (trees : Int) (W : Nat)
    (hfit : c.L.Fits (multiBound n trees W)) (h : s.BuildsMulti trees W s') :
    ∃ N0, s'.Built m n N0 ∧ (trees = -1 → 0 < W → 2 * n ≤ N0) ∧
      (0 ≤ trees → 0 < W → s'.roots.length = trees.toNat) ∧ s'.nNodes ≤ multiBound n trees W ∧
      s'.roots.Nodup := by
  obtain ⟨s1, x, h1, st, hf, h2⟩ := h
  obtain ⟨G, g1, g2, g3, g4⟩ := multi_grown hc hs hb hr trees W hfit h1 st hf
  obtain ⟨s6, F1, F2, F3, _⟩ := Idx.buildFinish_spec hc G (hfit.mono g1)
  rw [h2] at F1
  injection F1 with e
  subst e
  exact ⟨_, F2, g4, by rw [F3]; exact g3, by rw [F2.nNodes, F3]; exact g1, by rw [F3]; exact g2⟩

/-! ### progress -/

/-- Nobody but a worker inside the node counter section holds or waits for the write lock. -/
theorem Safe.wr_nn {P : Par} {p : Prog c} {h : Held} {g : G} {b : Bytes} (S : Safe P p h g b)
    (hp : ∀ e, p ≠ .fail e) (hw : h.wr ≠ .idle) : h.nn = true := by
  cases p <;> (try rw [Safe] at S)
  case fail e => exact absurd rfl (hp e)
  all_goals
    first
    | (obtain ⟨rfl, _⟩ := S; first | rfl | exact absurd rfl hw)
    | (obtain ⟨rfl | rfl, _⟩ := S <;> rfl)

theorem assignSides_total (side : Nat → c.R.σ → Side × c.R.σ) (ids : List Nat) :
    ∀ r, ∃ l rt r', Idx.assignSides (fun j r => .ok (side j r)) ids r = .ok (l, rt, r') := by
  induction ids with
  | nil => intro r; exact ⟨[], [], r, rfl⟩
  | cons j js ih =>
    intro r
    obtain ⟨l, rt, r', e⟩ := ih (side j r).2
    unfold Idx.assignSides
    simp only [bind, Except.bind, e]
    split
    · exact ⟨_, _, _, rfl⟩
    · exact ⟨_, _, _, rfl⟩

/-- A worker inside a critical section, other than one waiting for readers, can go on. -/
theorem Inv.progress_in {P : Par} {d0 : Bytes} {s : Idx c} {t : Th c} {rest : List (Th c)}
    {pub : List (List Nat)} (I : Inv P d0 s (t :: rest) pub) (hnf : ∀ u ∈ t :: rest, ∀ e, u.p ≠ .fail e)
    (h1 : t.h ≠ hF) (h2 : t.h ≠ hP) : ∃ s' h' p', TStep (rest.map Th.h) s t.h t.p s' h' p' := by
  have S := (I.thr t (by simp)).safe
  have hx : ∀ u ∈ rest, X t.h u.h := by
    intro u hu
    have := I.excl
    rw [List.map_cons, List.pairwise_cons] at this
    exact this.1 _ (List.mem_map_of_mem hu)
  have hf := hnf t (by simp)
  obtain ⟨h, p, g⟩ := t
  dsimp only at *
  cases p with
  | done => rw [Safe] at S; exact absurd S.1 h1
  | fail e => exact absurd rfl (hf e)
  | lockN k => rw [Safe] at S; exact absurd S.1 h1
  | unlockN k => rw [Safe] at S; exact ⟨_, _, _, .unlockN (by rw [S.1])⟩
  | rlock k => rw [Safe] at S; exact absurd S.1 h1
  | runlock k => rw [Safe] at S; exact ⟨_, _, _, .runlock (by rw [S.1])⟩
  | wlock k =>
    rw [Safe] at S
    rcases S.1 with rfl | rfl
    · refine ⟨_, _, _, .announce ?_ rfl⟩
      intro y hy
      obtain ⟨u, hu, rfl⟩ := List.mem_map.1 hy
      by_contra hcon
      have := Safe.wr_nn (I.thr u (by simp [hu])).safe (hnf u (by simp [hu])) hcon
      exact (hx u hu).1 ⟨rfl, this⟩
    · exact absurd rfl h2
  | wunlock k => rw [Safe] at S; exact ⟨_, _, _, .wunlock (by rw [S.1])⟩
  | lockR k => rw [Safe] at S; exact absurd S.1 h1
  | unlockR k => rw [Safe] at S; exact ⟨_, _, _, .unlockR (by rw [S.1])⟩
  | readN k => exact ⟨_, _, _, .readN⟩
  | setN v k => exact ⟨_, _, _, .setN⟩
  | readSize k => exact ⟨_, _, _, .readSize⟩
  | grow z k =>
    rw [Safe] at S
    rcases S.1 with rfl | rfl
    · exact ⟨_, _, _, .growBegin rfl⟩
    · exact ⟨_, _, _, .growEnd rfl⟩
  | read f k =>
    cases hfr : f s.bmem s.rng with
    | ok y => exact ⟨_, _, _, .read s.rng s.rng hfr⟩
    | error e => exact ⟨_, _, _, .readErr s.rng hfr⟩
  | write i f k =>
    cases hg : getNode c.L s.bmem i with
    | ok a => exact ⟨_, _, _, .write hg⟩
    | error e => exact ⟨_, _, _, .writeErr hg⟩
  | rand ids k => rw [Safe] at S; exact absurd S.1 h1
  | readRoots k => exact ⟨_, _, _, .readRoots⟩
  | setRoots rs k => exact ⟨_, _, _, .setRoots⟩

/-- A worker waiting for readers can go on when there are none. -/
theorem Inv.progress_wait {P : Par} {d0 : Bytes} {s : Idx c} {t : Th c} {rest : List (Th c)}
    {pub : List (List Nat)} (I : Inv P d0 s (t :: rest) pub) (hf : ∀ e, t.p ≠ .fail e)
    (h1 : t.h = hP) (h2 : ∀ u ∈ rest, u.h.rd = false) :
    ∃ s' h' p', TStep (rest.map Th.h) s t.h t.p s' h' p' := by
  have S := (I.thr t (by simp)).safe
  obtain ⟨h, p, g⟩ := t
  dsimp only at *
  subst h1
  cases p <;> (try rw [Safe] at S)
  case fail e => exact absurd rfl (hf e)
  case wlock k =>
    refine ⟨_, _, _, .wlock ?_ rfl rfl⟩
    intro y hy
    obtain ⟨u, hu, rfl⟩ := List.mem_map.1 hy
    exact h2 u hu
  all_goals
    exfalso
    first
    | (have := S.1; cases this; done)
    | (rcases S.1 with q | q <;> cases q)

/-- A worker outside all critical sections can go on when all the others are outside too. -/
theorem Inv.progress_out {P : Par} {d0 : Bytes} {s : Idx c} {t : Th c} {rest : List (Th c)}
    {pub : List (List Nat)} (I : Inv P d0 s (t :: rest) pub) (hf : ∀ e, t.p ≠ .fail e) (hd : t.p ≠ .done)
    (h1 : t.h = hF) (h2 : ∀ u ∈ rest, u.h = hF) :
    ∃ s' h' p', TStep (rest.map Th.h) s t.h t.p s' h' p' := by
  have S := (I.thr t (by simp)).safe
  have ho : ∀ y ∈ rest.map Th.h, y = hF := by
    intro y hy
    obtain ⟨u, hu, rfl⟩ := List.mem_map.1 hy
    exact h2 u hu
  obtain ⟨h, p, g⟩ := t
  dsimp only at *
  subst h1
  cases p <;> (try rw [Safe] at S)
  case done => exact absurd rfl hd
  case fail e => exact absurd rfl (hf e)
  case lockN k => exact ⟨_, _, _, .lockN (fun y hy => by rw [ho y hy]) rfl⟩
  case rlock k => exact ⟨_, _, _, .rlock (fun y hy => by rw [ho y hy]) rfl rfl⟩
  case lockR k => exact ⟨_, _, _, .lockR (fun y hy => by rw [ho y hy]) rfl⟩
  case rand ids k =>
    obtain ⟨l, rt, r', e⟩ := assignSides_total (c := c) (fun _ r => c.R.nextSide r) ids s.rng
    cases hb : c.le99 l.length rt.length with
    | true => exact ⟨_, _, _, .rand s.rng s.rng e hb⟩
    | false => exact ⟨_, _, _, .spin s.rng s.rng e hb⟩
  all_goals
    exfalso
    first
    | (have := S.1; cases this; done)
    | (rcases S.1 with q | q <;> cases q)

/-- Some worker can go on, unless all are done or one has panicked. -/
theorem Good.progress {P : Par} {d0 : Bytes} {x : Conf c} (hx : Good P d0 x) :
    x.Finished ∨ (∃ t ∈ x.ths, ∃ e, t.2 = .fail e) ∨ ∃ y, Step x y := by
  obtain ⟨ts, pub, ex, I⟩ := hx
  by_cases hfail : ∃ t ∈ x.ths, ∃ e, t.2 = .fail e
  · exact Or.inr (Or.inl hfail)
  by_cases hfin : x.Finished
  · exact Or.inl hfin
  right; right
  have hmem : ∀ t ∈ ts, (t.h, t.p) ∈ x.ths := by
    intro t ht; rw [ex]; exact List.mem_map_of_mem (f := fun t : Th c => (t.h, t.p)) ht
  have hnf : ∀ t ∈ ts, ∀ e, t.p ≠ .fail e := fun t ht e q => hfail ⟨_, hmem t ht, e, q⟩
  -- a step of one worker is a step of the configuration
  have lift : ∀ pre t post, ts = pre ++ t :: post →
      (∃ s' h' p', TStep ((pre ++ post).map Th.h) x.idx t.h t.p s' h' p') → ∃ y, Step x y := by
    rintro pre t post rfl ⟨s', h', p', st⟩
    obtain ⟨s, ths⟩ := x
    dsimp only at *
    subst ex
    rw [List.map_append, List.map_cons]
    refine ⟨_, Step.mk (pre.map fun t => (t.h, t.p)) (post.map fun t => (t.h, t.p)) (s' := s') (h' := h')
      (p' := p') ?_⟩
    rw [← List.map_append, List.map_map]
    exact st
  by_cases hin : ∃ t ∈ ts, t.h ≠ hF ∧ t.h ≠ hP
  · obtain ⟨t, ht, a, b⟩ := hin
    obtain ⟨pre, post, e⟩ := List.append_of_mem ht
    have hp : ts.Perm (t :: (pre ++ post)) := by rw [e]; exact List.perm_middle
    exact lift pre t post e ((I.perm hp).progress_in (fun u hu => hnf u (hp.mem_iff.2 hu)) a b)
  · have hall : ∀ t ∈ ts, t.h = hF ∨ t.h = hP := by
      intro t ht
      by_contra hcon
      exact hin ⟨t, ht, fun q => hcon (Or.inl q), fun q => hcon (Or.inr q)⟩
    by_cases hw : ∃ t ∈ ts, t.h = hP
    · obtain ⟨t, ht, a⟩ := hw
      obtain ⟨pre, post, e⟩ := List.append_of_mem ht
      have hp : ts.Perm (t :: (pre ++ post)) := by rw [e]; exact List.perm_middle
      refine lift pre t post e ((I.perm hp).progress_wait (hnf t ht) a ?_)
      intro u hu
      rcases hall u (hp.mem_iff.2 (by simp only [List.mem_cons]; exact Or.inr hu)) with q | q <;> rw [q]
    · have hall : ∀ t ∈ ts, t.h = hF := fun t ht => (hall t ht).resolve_right fun q => hw ⟨t, ht, q⟩
      have : ∃ t ∈ ts, t.p ≠ .done := by
        by_contra hcon
        apply hfin
        intro u hu
        rw [ex] at hu
        obtain ⟨t, ht, rfl⟩ := List.mem_map.1 hu
        by_contra hcon2
        exact hcon ⟨t, ht, hcon2⟩
      obtain ⟨t, ht, a⟩ := this
      obtain ⟨pre, post, e⟩ := List.append_of_mem ht
      have hp : ts.Perm (t :: (pre ++ post)) := by rw [e]; exact List.perm_middle
      refine lift pre t post e ((I.perm hp).progress_out (hnf t ht) a (hall t ht) ?_)
      intro u hu
      exact hall u (hp.mem_iff.2 (by simp only [List.mem_cons]; exact Or.inr hu))

/-- With total distance functions nobody panics. -/
theorem Good.no_fail {P : Par} {d0 : Bytes} {x : Conf c} (hx : Good P d0 x) (ht : P.tot) :
    ∀ t ∈ x.ths, ∀ e, t.2 ≠ .fail e := by
  obtain ⟨ts, pub, ex, I⟩ := hx
  intro u hu e q
  rw [ex] at hu
  obtain ⟨t, ht', rfl⟩ := List.mem_map.1 hu
  have S := (I.thr t ht').safe
  dsimp only at q
  rw [q, Safe] at S
  exact S ht

/-! ### what the locks protect -/

theorem Safe.touches {P : Par} {p : Prog c} {h : Held} {g : G} {b : Bytes} (S : Safe P p h g b)
    (ht : Touches p) : h = hR := by
  cases p <;> first | exact absurd ht id | (rw [Safe] at S; exact S.1)

theorem Safe.counts {P : Par} {p : Prog c} {h : Held} {g : G} {b : Bytes} (S : Safe P p h g b)
    (ht : Counts p) : h.nn = true := by
  cases p <;> first
    | exact absurd ht id
    | (rw [Safe] at S; have := S.1; subst this; rfl)
    | (rw [Safe] at S; rcases S.1 with rfl | rfl <;> rfl)

theorem Safe.roots {P : Par} {p : Prog c} {h : Held} {g : G} {b : Bytes} (S : Safe P p h g b)
    (ht : Roots p) : h.rt = true := by
  cases p <;> first
    | exact absurd ht id
    | (rw [Safe] at S; rw [S.1])

theorem Safe.moving {P : Par} {p : Prog c} {h : Held} {g : G} {b : Bytes} (S : Safe P p h g b)
    (hf : ∀ e, p ≠ .fail e) (hm : h.moving = true) : h = hM := by
  cases p <;> (try rw [Safe] at S)
  case fail e => exact absurd rfl (hf e)
  all_goals
    first
    | (have := S.1; rw [this] at hm; cases hm)
    | (rcases S.1 with q | q <;> rw [q] at hm <;> first | exact q | cases hm)

theorem Safe.writes {P : Par} {p : Prog c} {h : Held} {g : G} {b : Bytes} (S : Safe P p h g b) {i : Nat}
    (hw : writes p = some i) : i ∈ g.O := by
  cases p <;> first
    | (cases hw; done)
    | (injection hw with e; subst e; rw [Safe] at S; exact S.2.1)

theorem Good.two {P : Par} {d0 : Bytes} {x : Conf c} (hx : Good P d0 x) {a b : Held × Prog c}
    (h : Conf.Two x a b) : ∃ (t u : Th c) (rest : List (Th c)) (pub : List (List Nat)),
      (t.h, t.p) = a ∧ (u.h, u.p) = b ∧ Inv P d0 x.idx (t :: u :: rest) pub := by
  obtain ⟨ts, pub, ex, I⟩ := hx
  obtain ⟨pre, mid, post, h⟩ := h
  rcases h with h | h <;> rw [ex] at h
  all_goals
    obtain ⟨l1, l2, rfl, e1, e2⟩ := List.append_eq_map_iff.1 h.symm
    obtain ⟨l3, l4, rfl, e3, e4⟩ := List.append_eq_map_iff.1 e1.symm
    obtain ⟨t, l5, rfl, e5, e6⟩ := List.map_eq_cons_iff.1 e4
    obtain ⟨u, l6, rfl, e7, e8⟩ := List.map_eq_cons_iff.1 e2
  · refine ⟨t, u, l3 ++ l5 ++ l6, pub, e5, e7, I.perm ?_⟩
    refine (List.Perm.trans ?_ (List.Perm.refl _))
    have h1 : (l3 ++ t :: l5 ++ u :: l6).Perm (u :: (l3 ++ t :: l5 ++ l6)) := List.perm_middle
    have h2 : (l3 ++ t :: l5 ++ l6).Perm (t :: (l3 ++ l5 ++ l6)) := by
      rw [List.append_assoc, List.cons_append, List.append_assoc]; exact List.perm_middle
    exact (h1.trans (h2.cons u)).trans (List.Perm.swap _ _ _)
  · refine ⟨u, t, l3 ++ l5 ++ l6, pub, e7, e5, I.perm ?_⟩
    have h1 : (l3 ++ t :: l5 ++ u :: l6).Perm (u :: (l3 ++ t :: l5 ++ l6)) := List.perm_middle
    have h2 : (l3 ++ t :: l5 ++ l6).Perm (t :: (l3 ++ l5 ++ l6)) := by
      rw [List.append_assoc, List.cons_append, List.append_assoc]; exact List.perm_middle
    exact h1.trans (h2.cons u)

theorem Good.exclusive {P : Par} {d0 : Bytes} {x : Conf c} (hx : Good P d0 x) {a b : Held × Prog c}
    (h : Conf.Two x a b) :
    (a.1.moving = true → (∀ e, a.2 ≠ .fail e) → ¬ Touches b.2) ∧ (¬ (Counts a.2 ∧ Counts b.2)) ∧
    (¬ (Roots a.2 ∧ Roots b.2)) ∧ (∀ i j, writes a.2 = some i → writes b.2 = some j → i ≠ j) := by
  obtain ⟨t, u, rest, pub, rfl, rfl, I⟩ := hx.two h
  have St := (I.thr t (by simp)).safe
  have Su := (I.thr u (by simp)).safe
  have hX : X t.h u.h := by
    have := I.excl
    rw [List.map_cons, List.pairwise_cons] at this
    exact this.1 _ (by simp)
  refine ⟨?_, ?_, ?_, ?_⟩
  · intro hm hf ht
    have h1 := St.moving hf hm
    have h2 := Su.touches ht
    rw [h1, h2] at hX
    exact hX.2.2.2.1 ⟨rfl, rfl⟩
  · rintro ⟨h1, h2⟩
    exact hX.1 ⟨St.counts h1, Su.counts h2⟩
  · rintro ⟨h1, h2⟩
    exact hX.2.1 ⟨St.roots h1, Su.roots h2⟩
  · intro i j h1 h2 e
    subst e
    exact I.disjoint (by simp) (St.writes h1) (Su.writes h2)

theorem Good.write_bounds {P : Par} {d0 : Bytes} {x : Conf c} (hx : Good P d0 x) {a : Held × Prog c}
    (h : a ∈ x.ths) {i : Nat} (hw : writes a.2 = some i) : P.n ≤ i ∧ i < x.idx.nNodes := by
  obtain ⟨ts, pub, ex, I⟩ := hx
  rw [ex] at h
  obtain ⟨t, ht, rfl⟩ := List.mem_map.1 h
  exact I.own_bounds ht ((I.thr t ht).safe.writes hw)

/-- During a whole execution a node is written by one worker only. -/
theorem Good.single_writer (hc : c.WF) {P : Par} {d0 : Bytes} {x y : Conf c} (hx : Good P d0 x) (st : Steps x y)
    {k k' : Nat} {a b : Held × Prog c} (ha : x.ths[k]? = some a) (hb : y.ths[k']? = some b) {i : Nat}
    (wa : writes a.2 = some i) (wb : writes b.2 = some i) : k = k' := by
  obtain ⟨ts, pub, e, I⟩ := hx
  obtain ⟨ts', pub', e', I', hk⟩ := I.conf_steps hc e st
  rw [e, List.getElem?_map] at ha
  rw [e', List.getElem?_map] at hb
  obtain ⟨t, ht, rfl⟩ := Option.map_eq_some_iff.1 ha
  obtain ⟨u, hu, rfl⟩ := Option.map_eq_some_iff.1 hb
  obtain ⟨lk, rfl⟩ := List.getElem?_eq_some_iff.1 ht
  obtain ⟨lk', rfl⟩ := List.getElem?_eq_some_iff.1 hu
  have hlen := List.Forall₂.length_eq hk
  have h1 : i ∈ ts[k].g.O := (I.thr _ (List.getElem_mem lk)).safe.writes wa
  have h2 : i ∈ (ts'[k]'(by omega)).g.O := (List.forall₂_iff_get.1 hk).2 k lk (by omega) i h1
  have h3 : i ∈ ts'[k'].g.O := (I'.thr _ (List.getElem_mem lk')).safe.writes wb
  by_contra hne
  have hnd : (ts'.flatMap fun t => t.g.O).Nodup := I'.own.nodup_iff.2 List.nodup_range'
  have hpw := (List.nodup_flatMap.1 hnd).2
  rcases Nat.lt_or_gt_of_ne hne with hlt | hlt
  · exact List.pairwise_iff_getElem.1 hpw k k' (by omega) lk' hlt h2 h3
  · exact List.pairwise_iff_getElem.1 hpw k' k lk' (by omega) hlt h3 h2

end Conc
end Annoy
