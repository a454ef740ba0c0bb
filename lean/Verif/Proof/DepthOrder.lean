import Verif.Proof.DepthFirst
import Verif.Spec.DepthFirst
/-!
# The order of a best-first walk, as a function
-/
namespace Annoy

/-- The two subtrees below an inner node have different numbers. -/
def Tree.Apart : Tree → Prop
  | .split _ l r => l.root ≠ r.root ∧ l.Apart ∧ r.Apart
  | _ => True

theorem Tree.apart_of_nodup {t : Tree} (h : t.nodes.Nodup) : t.Apart := by
  induction t with
  | split i l r ihl ihr =>
    simp only [Tree.nodes] at h
    rw [List.nodup_cons, List.nodup_append] at h
    exact ⟨fun e => h.2.2.2 _ l.root_mem_nodes _ r.root_mem_nodes e, ihl h.2.1, ihr h.2.2.1⟩
  | _ => trivial

/-- The leaves among the visited nodes. -/
def yields {V : Type} : List (V × Tree) → List (List Nat)
  | [] => []
  | (_, .split _ _ _) :: vs => yields vs
  | (_, t) :: vs => t.items :: yields vs

theorem yields_append {V : Type} (vs ws : List (V × Tree)) : yields (vs ++ ws) = yields vs ++ yields ws := by
  induction vs with
  | nil => rfl
  | cons e vs ih =>
    obtain ⟨d, t⟩ := e
    cases t <;> simp [yields, ih]

variable {N : Num} {m : Nat → N.V}

/-- A walk that stops at a budget takes lists until there are enough numbers. -/
theorem gathered_eq_takeUpTo {vs G : List (N.V × Tree)} {rest : List (List Nat)} (hG : G = [] → rest = []) :
    ∀ {budget : Int}, StopsAt budget vs G → gathered vs = takeUpTo budget (yields vs ++ rest) := by
  induction vs with
  | nil =>
    intro budget hs
    rcases hs.finished with h | h
    · rw [hG h]; rfl
    · have h : budget ≤ 0 := h
      cases rest with
      | nil => rfl
      | cons l ls =>
        show [] = takeUpTo budget (l :: ls)
        unfold takeUpTo
        rw [if_neg (by omega)]
  | cons e vs ih =>
    intro budget hs
    have h0 : (0 : Int) < budget := hs.before [] e vs rfl
    have hs' : StopsAt (budget - e.2.own.length) vs G := by
      refine ⟨hs.finished.imp id fun h => ?_, fun vs₁ e' vs₂ hv => ?_⟩
      · rw [gathered_cons, List.length_append] at h
        push_cast at h
        omega
      · have := hs.before (e :: vs₁) e' vs₂ (by rw [hv]; rfl)
        rw [gathered_cons, List.length_append] at this
        push_cast at this
        omega
    have ih := ih hs'
    obtain ⟨d, t⟩ := e
    rw [gathered_cons, ih]
    cases t with
    | split i l r =>
      show takeUpTo (budget - (0 : Nat)) _ = takeUpTo budget (yields vs ++ rest)
      simp
    | _ =>
      simp only [yields, List.cons_append, takeUpTo]
      rw [if_pos h0]
      rfl

/-- Entries of a frontier in the order in which they are served. -/
def InOrder (N : Num) (F : List (N.V × Tree)) : Prop := F.Pairwise fun a b => PairLt N (a.1, a.2.root) (b.1, b.2.root)

theorem BestFirst.head_first {F F' : List (N.V × Tree)} {e : N.V × Tree} (ho : InOrder N F) (p : F.Perm (e :: F'))
    (hmin : ∀ e' ∈ F', ¬ PairLt N (e'.1, e'.2.root) (e.1, e.2.root)) : ∃ A, F = e :: A ∧ A.Perm F' := by
  cases F with
  | nil => have := p.length_eq; simp at this
  | cons a A =>
    unfold InOrder at ho
    rw [List.pairwise_cons] at ho
    have hea : e = a := by
      rcases List.mem_cons.1 (p.symm.subset (List.mem_cons_self (a := e))) with h | h
      · exact h
      · rcases List.mem_cons.1 (p.subset (List.mem_cons_self (a := a))) with h' | h'
        · exact h'.symm
        · exact absurd (ho.1 e h) (hmin a h')
    subst hea
    exact ⟨A, rfl, p.cons_inv⟩

/-- What one entry leads to. -/
def orderOf (N : Num) (m : Nat → N.V) (e : N.V × Tree) : List (List Nat) := e.2.order N m e.1

theorem opened_inOrder (hk : N.KeyLaws) {d : N.V} {i : Nat} {l r : Tree} (he : N.Ordinary d ∧ ∀ j ∈ (Tree.split i l r).splitNodes, N.Ordinary (m j))
    (ha : l.root ≠ r.root) : ∃ F, (opened N m (d, .split i l r)).Perm F ∧ InOrder N F ∧
      F.flatMap (orderOf N m) = Tree.order N m d (.split i l r) := by
  obtain ⟨b1, -⟩ := opened_spec hk (e := (d, .split i l r)) he
  have hl := (b1 (N.min d (N.neg (m i)), l) (by simp [opened])).1
  have hr := (b1 (N.min d (m i), r) (by simp [opened])).1
  have hpair : ∀ a b : N.V × Tree, PairLt N (a.1, a.2.root) (b.1, b.2.root) → InOrder N [a, b] := by
    intro a b h
    simp [InOrder, h]
  by_cases hc : N.lt (N.min d (m i)) (N.min d (N.neg (m i))) = true ∨
        (N.lt (N.min d (N.neg (m i))) (N.min d (m i)) = false ∧ r.root < l.root)
  · refine ⟨[(N.min d (m i), r), (N.min d (N.neg (m i)), l)], List.Perm.swap _ _ _, hpair _ _ ?_, ?_⟩
    · rcases hc with h | ⟨h, h'⟩
      · exact Or.inl h
      · rcases hk.lawful.trichotomy _ _ hr hl with h3 | h3 | h3
        · exact Or.inl h3
        · exact Or.inr ⟨h3, h'⟩
        · rw [h] at h3; cases h3
    · unfold Tree.order
      rw [if_pos hc]
      simp [orderOf]
  · refine ⟨[(N.min d (N.neg (m i)), l), (N.min d (m i), r)], List.Perm.refl _, hpair _ _ ?_, ?_⟩
    · rcases hk.lawful.trichotomy _ _ hl hr with h3 | h3 | h3
      · exact Or.inl h3
      · right
        refine ⟨h3, ?_⟩
        by_contra hn
        apply hc
        right
        refine ⟨?_, by dsimp only at hn; omega⟩
        by_contra hlt
        rw [Bool.not_eq_false] at hlt
        have := hk.lawful.lt_of_lt_of_eq _ _ _ hlt (hk.lawful.eq_symm _ _ h3)
        rw [hk.lawful.lt_irrefl] at this
        cases this
      · exact absurd (Or.inl h3) hc
    · unfold Tree.order
      rw [if_neg hc]
      simp [orderOf]

theorem opened_apart {e : N.V × Tree} (h : e.2.Apart) {D : Nat} (hD : e.2.depth ≤ D + 1) :
    ∀ a ∈ opened N m e, a.2.Apart ∧ a.2.depth ≤ D := by
  obtain ⟨d, t⟩ := e
  cases t with
  | split i l r =>
    intro a ha
    simp only [Tree.depth] at hD
    simp only [opened, List.mem_cons, List.not_mem_nil, or_false] at ha
    rcases ha with rfl | rfl
    · exact ⟨h.2.1, by dsimp only; omega⟩
    · exact ⟨h.2.2, by dsimp only; omega⟩
  | item i => intro a ha; simp [opened] at ha
  | hole i => intro a ha; simp [opened] at ha
  | bucket i ids => intro a ha; simp [opened] at ha

/-- One entry after the other. -/
theorem BestFirst.order_forest (hk : N.KeyLaws) : ∀ (k : Nat) {F vs G : List (N.V × Tree)}, F.length ≤ k → BestFirst N m F vs G →
    KeysOk N m F → (∀ a ∈ F, a.2.Descends) → InOrder N F →
    (∀ e ∈ F, ∀ va GA, BestFirst N m (opened N m e) va GA → ∃ rest, orderOf N m e = yields (e :: va) ++ rest ∧ (GA = [] → rest = [])) →
    ∃ rest, F.flatMap (orderOf N m) = yields vs ++ rest ∧ (G = [] → rest = []) := by
  intro k
  induction k with
  | zero =>
    intro F vs G hl h _ _ _ _
    obtain rfl : F = [] := List.eq_nil_of_length_eq_zero (by omega)
    obtain ⟨rfl, -⟩ := h.nil_left
    exact ⟨[], rfl, fun _ => rfl⟩
  | succ k ih =>
    intro F vs G hl h hF hd ho hf
    cases vs with
    | nil =>
      cases h with
      | stop q =>
        refine ⟨_, rfl, fun hG => ?_⟩
        subst hG
        rw [q.eq_nil]
        rfl
    | cons e vs =>
      have hmin : ∃ F', F.Perm (e :: F') ∧ ∀ e' ∈ F', ¬ PairLt N (e'.1, e'.2.root) (e.1, e.2.root) := by
        cases h with
        | visit q r s => exact ⟨_, q, r⟩
      obtain ⟨F0, q0, r0⟩ := hmin
      obtain ⟨A, rfl, -⟩ := BestFirst.head_first ho q0 r0
      obtain ⟨F', va, vr, GA, p, rfl, h1, h2⟩ := h.depth_first hk hF hd
      have pA : A.Perm F' := p.cons_inv
      obtain ⟨rest, j1, j2⟩ := hf e List.mem_cons_self va GA h1
      have hcons : yields (e :: (va ++ vr)) = yields (e :: va) ++ yields vr := by
        rw [← List.cons_append, yields_append]
      rw [List.flatMap_cons, j1, hcons]
      rcases h2 with ⟨rfl, hG⟩ | ⟨rfl, h2⟩
      · refine ⟨rest ++ A.flatMap (orderOf N m), by simp [yields, List.append_assoc], fun hn => ?_⟩
        subst hn
        have h3 := hG.length_eq
        rw [List.length_nil, List.length_append] at h3
        have h4 : GA = [] := List.eq_nil_of_length_eq_zero (by omega)
        have h5 : A = [] := List.eq_nil_of_length_eq_zero (by rw [pA.length_eq]; omega)
        rw [j2 h4, h5]
        rfl
      · unfold InOrder at ho
        rw [List.pairwise_cons] at ho
        simp only [List.length_cons] at hl
        obtain ⟨rest', i1, i2⟩ := ih (by omega) (h2.perm pA) (fun a ha => hF a (List.mem_cons_of_mem _ ha))
          (fun a ha => hd a (List.mem_cons_of_mem _ ha)) ho.2 (fun a ha => hf a (List.mem_cons_of_mem _ ha))
        refine ⟨rest', ?_, i2⟩
        rw [i1, j2 rfl, List.append_nil, List.append_assoc]

/-- The leaves visited are the first ones of the depth-first order. -/
theorem BestFirst.order (hk : N.KeyLaws) (D : Nat) : ∀ {F vs G : List (N.V × Tree)}, BestFirst N m F vs G →
    KeysOk N m F → (∀ a ∈ F, a.2.Descends) → (∀ a ∈ F, a.2.Apart ∧ a.2.depth ≤ D) → InOrder N F →
    ∃ rest, F.flatMap (orderOf N m) = yields vs ++ rest ∧ (G = [] → rest = []) := by
  have leaf : ∀ {d : N.V} {t : Tree}, (∀ i l r, t ≠ .split i l r) → ∀ va GA, BestFirst N m (opened N m (d, t)) va GA →
      ∃ rest, orderOf N m (d, t) = yields ((d, t) :: va) ++ rest ∧ (GA = [] → rest = []) := by
    intro d t ht va GA h
    cases t with
    | split i l r => exact absurd rfl (ht i l r)
    | _ =>
      obtain ⟨rfl, -⟩ := (show BestFirst N m [] va GA from h).nil_left
      exact ⟨[], rfl, fun _ => rfl⟩
  induction D with
  | zero =>
    intro F vs G h hF hd hf ho
    refine h.order_forest hk _ (le_refl _) hF hd ho fun e he => ?_
    obtain ⟨f1, f2⟩ := hf e he
    obtain ⟨d, t⟩ := e
    cases t with
    | split i l r => exact absurd f2 (by simp [Tree.depth])
    | _ => exact leaf (fun _ _ _ h => nomatch h)
  | succ D ih =>
    intro F vs G h hF hd hf ho
    refine h.order_forest hk _ (le_refl _) hF hd ho fun e he => ?_
    obtain ⟨f1, f2⟩ := hf e he
    have hde := opened_descends (m := m) (hd e he)
    have hop := opened_apart (m := m) f1 f2
    have hke := (opened_spec hk (hF e he)).1
    obtain ⟨d, t⟩ := e
    cases t with
    | split i l r =>
      intro va GA hw
      obtain ⟨F1, p1, p2, p3⟩ := opened_inOrder hk (hF _ he) f1.1
      obtain ⟨rest, j1, j2⟩ := ih (hw.perm p1.symm) (fun a ha => hke a (p1.symm.subset ha)) (fun a ha => (hde a (p1.symm.subset ha)).1)
        (fun a ha => hop a (p1.symm.subset ha)) p2
      exact ⟨rest, p3.symm.trans j1, j2⟩
    | _ => exact leaf (fun _ _ _ h => nomatch h)

end Annoy
