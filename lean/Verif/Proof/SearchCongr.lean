import Verif.Proof.SearchRun
/-!
Two memories that agree on the nodes a search can reach give the same search.
-/
namespace Annoy
namespace Search
variable {c : Cfg}

/-- `P` is a set of nodes on which two memories agree, closed under the steps of a search. -/
structure Agree (c : Cfg) (mem mem' : Block) (n n' : Nat) (P : Nat → Prop) : Prop where
  node : ∀ i, P i → ∃ a, getNode c.L mem i = .ok a ∧ getNode c.L mem' i = .ok a ∧
    ∀ j, j < c.L.nodeSize → mem.get (a + j) = mem'.get (a + j)
  item : ∀ i, P i → ∀ a, getNode c.L mem i = .ok a → Node.nDesc c.L mem.get a = 1 → (i < n ↔ i < n')
  bucket : ∀ i, P i → ∀ a, getNode c.L mem i = .ok a → Node.nDesc c.L mem.get a ≤ c.L.K →
    ¬ (Node.nDesc c.L mem.get a = 1 ∧ i < n) → ∀ x ∈ Node.getChildren c.L mem.get a, P x
  inner : ∀ i, P i → ∀ a, getNode c.L mem i = .ok a → c.L.K < Node.nDesc c.L mem.get a →
    P (Node.child c.L mem.get a 0) ∧ P (Node.child c.L mem.get a 1)

section
variable {mem mem' : Block} {n n' : Nat} {P : Nat → Prop}

theorem nDesc_same (hc : c.WF) {a : Nat} (h : ∀ j, j < c.L.nodeSize → mem.get (a + j) = mem'.get (a + j)) :
    Node.nDesc c.L mem.get a = Node.nDesc c.L mem'.get a :=
  Node.nDesc_congr fun j hj => h j (by have := hc.layout.three_le; omega)

theorem child_same (hc : c.WF) {a k : Nat} (hk : k < c.L.K)
    (h : ∀ j, j < c.L.nodeSize → mem.get (a + j) = mem'.get (a + j)) :
    Node.child c.L mem.get a k = Node.child c.L mem'.get a k := by
  have hKf := hc.layout.K_fits
  have : (k + 2) * c.L.szIX ≤ (c.L.K + 1) * c.L.szIX := Nat.mul_le_mul_right _ (by omega)
  rw [Nat.add_mul c.L.K] at this
  exact Node.child_congr fun j hj => h j (by omega)

theorem children_same (hc : c.WF) {a : Nat} (hk : Node.nDesc c.L mem.get a ≤ c.L.K)
    (h : ∀ j, j < c.L.nodeSize → mem.get (a + j) = mem'.get (a + j)) :
    Node.getChildren c.L mem.get a = Node.getChildren c.L mem'.get a := by
  unfold Node.getChildren
  rw [← nDesc_same hc h]
  exact List.map_congr_left fun k hk' => child_same hc (by have := List.mem_range.1 hk'; omega) h

theorem loop_congr (hc : c.WF) (h : Agree c mem mem' n n' P) {query : List c.N.V} {budget : Int} (fuel : Nat) :
    ∀ {q buf cnt}, (∀ x ∈ q, P x.2) →
      loop c mem n query budget fuel q buf cnt = loop c mem' n' query budget fuel q buf cnt := by
  induction fuel with
  | zero => intros; rfl
  | succ fuel ih =>
    intro q buf cnt hq
    unfold loop
    by_cases hb : (cnt : Int) < budget
    · rw [if_pos hb, if_pos hb]
      cases hp : Heap.pop (pairLess c.N) q with
      | none => rfl
      | some x =>
        obtain ⟨⟨d, i⟩, q'⟩ := x
        have hperm := Heap.pop_perm _ _ _ _ hp
        have hPi : P i := hq (d, i) (hperm.mem_iff.1 List.mem_cons_self)
        have hq' : ∀ x ∈ q', P x.2 := fun x hx => hq x (hperm.mem_iff.1 (List.mem_cons_of_mem _ hx))
        obtain ⟨a, ha, ha', hab⟩ := h.node i hPi
        have hnd := nDesc_same hc hab
        simp only [ha, ha', bind, Except.bind, ← hnd]
        have hit : (Node.nDesc c.L mem.get a = 1 ∧ i < n) ↔ (Node.nDesc c.L mem.get a = 1 ∧ i < n') :=
          and_congr_right fun h1 => h.item i hPi a ha h1
        by_cases hit1 : Node.nDesc c.L mem.get a = 1 ∧ i < n
        · rw [if_pos hit1, if_pos (hit.1 hit1)]
          split
          · exact ih hq'
          · rfl
        · rw [if_neg hit1, if_neg fun h' => hit1 (hit.2 h')]
          by_cases hK : Node.nDesc c.L mem.get a ≤ c.L.K
          · rw [if_pos hK, if_pos hK, ← children_same hc hK hab]
            split
            · exact ih hq'
            · rfl
          · rw [if_neg hK, if_neg hK, ← hc.margin mem.get a mem'.get a query hab]
            cases c.D.margin mem.get a query with
            | error e => rfl
            | ok m =>
              have h2 := hc.layout.K_ge
              obtain ⟨hc0, hc1⟩ := h.inner i hPi a ha (by omega)
              simp only
              rw [← child_same hc (by omega) hab, ← child_same hc (by omega) hab]
              apply ih
              intro x hx
              rcases List.mem_cons.1 ((Heap.push_perm _ _ _).mem_iff.1 hx) with rfl | hx
              · exact hc0
              · rcases List.mem_cons.1 ((Heap.push_perm _ _ _).mem_iff.1 hx) with rfl | hx
                · exact hc1
                · exact hq' x hx
    · rw [if_neg hb, if_neg hb]

theorem collect_within (h : Agree c mem mem' n n' P) {query : List c.N.V} {budget : Int} (fuel : Nat) :
    ∀ {q acc col}, (∀ x ∈ q, P x.2) → (∀ x ∈ acc, P x) →
      collect mem n query budget fuel q acc = .ok col → ∀ x ∈ col, P x := by
  induction fuel with
  | zero => intro q acc col _ _ he; cases he
  | succ fuel ih =>
    intro q acc col hq hacc he
    unfold collect at he
    split at he
    · split at he
      · cases he; exact hacc
      · next d i q' hp =>
        have hperm := Heap.pop_perm _ _ _ _ hp
        have hPi : P i := hq (d, i) (hperm.mem_iff.1 List.mem_cons_self)
        have hq' : ∀ x ∈ q', P x.2 := fun x hx => hq x (hperm.mem_iff.1 (List.mem_cons_of_mem _ hx))
        obtain ⟨a, ha, ha', hab⟩ := h.node i hPi
        simp only [ha, bind, Except.bind] at he
        split at he
        · refine ih hq' ?_ he
          intro x hx
          rcases List.mem_append.1 hx with hx | hx
          · exact hacc x hx
          · rw [List.mem_singleton.1 hx]; exact hPi
        · next hit =>
          split at he
          · next hK =>
            refine ih hq' ?_ he
            intro x hx
            rcases List.mem_append.1 hx with hx | hx
            · exact hacc x hx
            · exact h.bucket i hPi a ha hK hit x hx
          · next hK =>
            split at he
            · cases he
            · next m hm =>
              obtain ⟨hc0, hc1⟩ := h.inner i hPi a ha (by omega)
              refine ih ?_ hacc he
              intro x hx
              rcases List.mem_cons.1 ((Heap.push_perm _ _ _).mem_iff.1 hx) with rfl | hx
              · exact hc0
              · rcases List.mem_cons.1 ((Heap.push_perm _ _ _).mem_iff.1 hx) with rfl | hx
                · exact hc1
                · exact hq' x hx
    · cases he; exact hacc

theorem distances_congr (hc : c.WF) (h : Agree c mem mem' n n' P) {vn : Bytes} (l : List Nat) :
    ∀ last, (∀ j ∈ l, P j) → distances c mem vn last l = distances c mem' vn last l := by
  induction l with
  | nil => intros; rfl
  | cons j l ih =>
    intro last hl
    unfold distances
    have hl' : ∀ i ∈ l, P i := fun i hi => hl i (by simp [hi])
    split
    · exact ih last hl'
    · obtain ⟨a, ha, ha', hab⟩ := h.node j (hl j (by simp))
      have h3 := hc.layout.three_le
      have hsz := hc.layout.size_eq
      simp only [ha, ha', ih (some j) hl', bind, Except.bind, ← nDesc_same hc hab]
      have hsame : SameItem c mem.get a mem'.get a := by
        refine ⟨Node.vec_congr c.C fun k hk => ?_, fun k _ hk => hab k (by omega)⟩
        have := hab (c.L.offV + k) (by omega)
        simpa [Nat.add_assoc] using this
      rw [hc.distance vn 0 mem.get a vn 0 mem'.get a (SameItem.refl c vn 0) hsame]

/-- The searches are the same call for call: results, contexts, panics. -/
theorem run_congr (hc : c.WF) (h : Agree c mem mem' n n' P) {roots : List Nat} (hr : ∀ r ∈ roots, P r)
    (fuel : Nat) (query : List c.N.V) (k b : Int) (ctx : Ctx c) :
    run c fuel mem n roots query k b ctx = run c fuel mem' n' roots query k b ctx := by
  have hq : ∀ x ∈ initQueue c roots, P x.2 := by
    intro x hx
    obtain ⟨r, hr', rfl⟩ := List.mem_map.1 ((initQueue_perm roots).mem_iff.1 hx)
    exact hr r hr'
  unfold run
  simp only [bind, Except.bind]
  rw [← loop_congr hc h fuel hq]
  cases hl : loop c mem n query (if b = -1 then k * roots.length else b) fuel (initQueue c roots) ctx.nns 0 with
  | error e => rfl
  | ok x =>
    obtain ⟨buf, cnt⟩ := x
    simp only
    split
    · rfl
    · next hle =>
      obtain ⟨col, h1, h2, h3, h4⟩ := (loop_iff fuel (initQueue c roots) ctx.nns buf cnt).1 ⟨hl, by omega⟩
      have hcol := collect_within h fuel hq (by simp) h1
      cases queryNode c query with
      | error e => rfl
      | ok vn =>
        simp only
        rw [distances_congr hc h]
        intro j hj
        have hj := (hc.sortIds_perm _).mem_iff.1 hj
        apply hcol
        rw [h3, h4] at hj
        simpa using hj

/-- The returned ids are candidates. -/
theorem run_ids (hc : c.WF) {roots : List Nat} {fuel : Nat} {query : List c.N.V} {k b : Int} {ctx ctx' : Ctx c}
    {ids : List Nat} {ds : List c.N.V} (hr : run c fuel mem n roots query k b ctx = .ok (ids, ds, ctx')) :
    ∃ col, collect mem n query (if b = -1 then k * roots.length else b) fuel (initQueue c roots) [] = .ok col ∧
      ∀ i ∈ ids, i ∈ col := by
  have hdist : ∀ (vn : Bytes) (l : List Nat) last r, distances c mem vn last l = .ok r → ∀ p ∈ r, p.2 ∈ l := by
    intro vn l
    induction l with
    | nil => intro last r h; cases h; simp
    | cons j l ih =>
      intro last r h p hp
      unfold distances at h
      split at h
      · exact List.mem_cons_of_mem _ (ih _ _ h p hp)
      · simp only [bind, Except.bind] at h
        split at h
        · cases h
        · split at h
          · cases h
          · next r' hr' =>
            split at h
            · cases h
              rcases List.mem_cons.1 hp with rfl | hp
              · simp
              · exact List.mem_cons_of_mem _ (ih _ _ hr' p hp)
            · cases h
              exact List.mem_cons_of_mem _ (ih _ _ hr' p hp)
  unfold run at hr
  simp only [bind, Except.bind] at hr
  split at hr
  · cases hr
  · next x hl =>
    obtain ⟨buf, cnt⟩ := x
    dsimp only at hr
    split at hr
    · cases hr
    · next hle =>
      obtain ⟨col, h1, h2, h3, h4⟩ := (loop_iff fuel (initQueue c roots) ctx.nns buf cnt).1 ⟨hl, by omega⟩
      refine ⟨col, h1, fun i hi => ?_⟩
      split at hr
      · cases hr
      · split at hr
        · cases hr
        · next ds' hds =>
          cases hr
          obtain ⟨p, hp, rfl⟩ := List.mem_map.1 hi
          have hp := List.mem_of_mem_take hp
          have hp := (hc.partialSort_perm _ _).mem_iff.1 hp
          have := hdist _ _ _ _ hds p hp
          have := (hc.sortIds_perm _).mem_iff.1 this
          rw [h3, h4] at this
          simpa using this

end
end Search
end Annoy
