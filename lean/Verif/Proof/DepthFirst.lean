import Verif.Proof.BestFirst
import Verif.Props.Depth
/-!
# A best-first walk with keys that never grow goes depth first

The key of a child is at most that of its parent, and in the trees of an index the number of a child is smaller than that of
its parent.  So the subtrees a visited node puts on the frontier come before everything else that is on it.
-/
namespace Annoy

/-- Children have smaller numbers than their parents. -/
def Tree.Descends : Tree → Prop
  | .split i l r => l.root < i ∧ r.root < i ∧ l.Descends ∧ r.Descends
  | _ => True

/-- Every leaf yields something. -/
def Tree.Full : Tree → Prop
  | .split _ l r => l.Full ∧ r.Full
  | t => t.own ≠ []

variable {N : Num} {m : Nat → N.V}

theorem opened_descends {e : N.V × Tree} (h : e.2.Descends) : ∀ a ∈ opened N m e, a.2.Descends ∧ a.2.root < e.2.root := by
  obtain ⟨d, t⟩ := e
  cases t with
  | split i l r =>
    intro a ha
    simp only [opened, List.mem_cons, List.not_mem_nil, or_false] at ha
    rcases ha with rfl | rfl
    · exact ⟨h.2.2.1, h.1⟩
    · exact ⟨h.2.2.2, h.2.1⟩
  | item i => intro a ha; simp [opened] at ha
  | hole i => intro a ha; simp [opened] at ha
  | bucket i ids => intro a ha; simp [opened] at ha

/-- `x ≤ y` and a smaller number, before something behind `y`. -/
theorem PairLt.of_le {x y z : N.V × Nat} (hk : N.KeyLaws) (hx : N.Ordinary x.1) (hy : N.Ordinary y.1) (h1 : N.lt y.1 x.1 = false)
    (h2 : x.2 < y.2) (h : PairLt N y z ∨ (N.eq y.1 z.1 = true ∧ y.2 = z.2)) : PairLt N x z := by
  rcases hk.lawful.trichotomy x.1 y.1 hx hy with h3 | h3 | h3
  · left
    rcases h with (h | ⟨h, -⟩) | ⟨h, -⟩
    · exact hk.lawful.lt_trans _ _ _ h3 h
    · exact hk.lawful.lt_of_lt_of_eq _ _ _ h3 h
    · exact hk.lawful.lt_of_lt_of_eq _ _ _ h3 h
  · rcases h with (h | ⟨h, h4⟩) | ⟨h, h4⟩
    · exact Or.inl (hk.lawful.lt_of_eq_of_lt _ _ _ h3 h)
    · exact Or.inr ⟨hk.lawful.eq_trans _ _ _ h3 h, by omega⟩
    · exact Or.inr ⟨hk.lawful.eq_trans _ _ _ h3 h, by omega⟩
  · rw [h1] at h3; cases h3

/-- Trees whose (key, number) pairs come before all others are served completely before anything else. -/
theorem BestFirst.exhaust_pairs (hk : N.KeyLaws) {F vs G : List (N.V × Tree)} (h : BestFirst N m F vs G) :
    ∀ {A R : List (N.V × Tree)}, KeysOk N m F → F.Perm (A ++ R) → (∀ a ∈ A, a.2.Descends) →
    (∀ a ∈ A, ∀ r ∈ R, PairLt N (a.1, a.2.root) (r.1, r.2.root)) →
    ∃ va vr GA, vs = va ++ vr ∧ BestFirst N m A va GA ∧
      ((vr = [] ∧ G.Perm (GA ++ R)) ∨ (GA = [] ∧ BestFirst N m R vr G)) := by
  induction h with
  | @stop F G q =>
    intro A R _ p _ _
    exact ⟨[], [], A, rfl, .stop (List.Perm.refl _), Or.inl ⟨rfl, q.symm.trans p⟩⟩
  | @visit F e F' vs G q r s ih =>
    intro A R hF p hd hlt
    by_cases hA : A = []
    · subst hA
      exact ⟨[], e :: vs, [], rfl, .stop (List.Perm.refl _), Or.inr ⟨rfl, .visit (p.symm.trans q) r s⟩⟩
    · obtain ⟨a, A0, rfl⟩ := List.exists_cons_of_ne_nil hA
      -- the visited entry is one of `A`
      have heA : e ∈ a :: A0 := by
        have he : e ∈ (a :: A0) ++ R := p.subset (q.symm.subset (by simp))
        rcases List.mem_append.1 he with he | he
        · exact he
        · exfalso
          have hae := hlt a (by simp) e he
          have ha : a ∈ e :: F' := q.subset (p.symm.subset (by simp))
          rcases List.mem_cons.1 ha with ha | ha
          · subst ha
            rcases hae with h | ⟨-, h⟩
            · rw [hk.lawful.lt_irrefl] at h; cases h
            · exact absurd h (lt_irrefl _)
          · exact r a ha hae
      obtain ⟨s1, s2, hs⟩ := List.append_of_mem heA
      have pA : (a :: A0).Perm (e :: (s1 ++ s2)) := by rw [hs]; exact List.perm_middle
      have pF' : F'.Perm ((s1 ++ s2) ++ R) := by
        have := (q.symm.trans p).trans (pA.append_right R)
        exact this.cons_inv
      have heOk := hF e (q.symm.subset (by simp))
      obtain ⟨b1, b2⟩ := opened_spec hk heOk
      have hde := opened_descends (m := m) (hd e heA)
      obtain ⟨va, vr, GA, i1, i2, i3⟩ := ih (A := opened N m e ++ (s1 ++ s2)) (R := R) (hF.step hk q) (by
        rw [List.append_assoc]; exact List.Perm.append_left _ pF') (by
        intro a' ha'
        rcases List.mem_append.1 ha' with ha' | ha'
        · exact (hde a' ha').1
        · exact hd a' (pA.symm.subset (by simp [List.mem_append.1 ha']))) (by
        intro a' ha' r' hr'
        rcases List.mem_append.1 ha' with ha' | ha'
        · exact PairLt.of_le (y := (e.1, e.2.root)) hk (b1 a' ha').1 heOk.1 (b2 a' ha') (hde a' ha').2 (Or.inl (hlt e heA r' hr'))
        · exact hlt a' (pA.symm.subset (by simp [List.mem_append.1 ha'])) r' hr')
      refine ⟨e :: va, vr, GA, by rw [i1]; rfl, ?_, i3⟩
      refine .visit pA ?_ i2
      intro e' he'
      exact r e' (pF'.symm.subset (List.mem_append_left _ he'))

/-- What is visited after a node: first everything below it, then the rest of the frontier. -/
theorem BestFirst.depth_first (hk : N.KeyLaws) {F vs G : List (N.V × Tree)} {e : N.V × Tree} (h : BestFirst N m F (e :: vs) G)
    (hF : KeysOk N m F) (hd : ∀ a ∈ F, a.2.Descends) :
    ∃ F' va vr GA, F.Perm (e :: F') ∧ vs = va ++ vr ∧ BestFirst N m (opened N m e) va GA ∧
      ((vr = [] ∧ G.Perm (GA ++ F')) ∨ (GA = [] ∧ BestFirst N m F' vr G)) := by
  cases h with
  | @visit _ _ F' _ _ q r s =>
    have he : e ∈ F := q.symm.subset (by simp)
    have heOk := hF e he
    obtain ⟨b1, b2⟩ := opened_spec hk heOk
    have hde := opened_descends (m := m) (hd e he)
    obtain ⟨va, vr, GA, i1, i2, i3⟩ := s.exhaust_pairs hk (A := opened N m e) (R := F') (hF.step hk q) (List.Perm.refl _)
      (fun a ha => (hde a ha).1) (by
        intro a ha b hb
        have hb' := hF b (q.symm.subset (by simp [hb]))
        have hnb := r b hb
        refine PairLt.of_le (y := (e.1, e.2.root)) hk (b1 a ha).1 heOk.1 (b2 a ha) (hde a ha).2 ?_
        rcases pair_total hk.lawful (e.1, e.2.root) (b.1, b.2.root) heOk.1 hb'.1 with h | h | h
        · exact Or.inl h
        · exact absurd h hnb
        · exact Or.inr h)
    exact ⟨F', va, vr, GA, q, i1, i2, i3⟩

theorem KeysOk.tail {F F' : List (N.V × Tree)} {e : N.V × Tree} (h : KeysOk N m F) (p : F.Perm (e :: F')) : KeysOk N m F' :=
  fun a ha => h a (p.symm.subset (by simp [ha]))

theorem opened_full {e : N.V × Tree} (h : e.2.Full) {D : Nat} (hD : e.2.depth ≤ D + 1) :
    ∀ a ∈ opened N m e, a.2.Full ∧ a.2.depth ≤ D := by
  obtain ⟨d, t⟩ := e
  cases t with
  | split i l r =>
    intro a ha
    simp only [Tree.depth] at hD
    simp only [opened, List.mem_cons, List.not_mem_nil, or_false] at ha
    rcases ha with rfl | rfl
    · exact ⟨h.1, by dsimp only; omega⟩
    · exact ⟨h.2, by dsimp only; omega⟩
  | item i => intro a ha; simp [opened] at ha
  | hole i => intro a ha; simp [opened] at ha
  | bucket i ids => intro a ha; simp [opened] at ha

/-- One tree after the other. -/
theorem BestFirst.visits_forest (hk : N.KeyLaws) (D : Nat) : ∀ (k : Nat) {F vs G : List (N.V × Tree)}, F.length ≤ k → BestFirst N m F vs G →
    KeysOk N m F → (∀ a ∈ F, a.2.Descends) →
    (∀ e ∈ F, ∀ va GA, BestFirst N m (opened N m e) va GA →
      va.length + 1 ≤ 2 * (e.2.own.length + (gathered va).length) + D ∧
      (GA = [] → va.length + 2 ≤ 2 * (e.2.own.length + (gathered va).length))) →
    vs.length ≤ 2 * (gathered vs).length + D ∧ (G = [] → vs.length + F.length ≤ 2 * (gathered vs).length) := by
  intro k
  induction k with
  | zero =>
    intro F vs G hl h _ _ _
    obtain rfl : F = [] := List.eq_nil_of_length_eq_zero (by omega)
    obtain ⟨rfl, -⟩ := h.nil_left
    exact ⟨Nat.zero_le _, fun _ => Nat.zero_le _⟩
  | succ k ih =>
    intro F vs G hl h hF hd hf
    cases vs with
    | nil =>
      cases h with
      | stop q =>
        refine ⟨Nat.zero_le _, fun hG => ?_⟩
        subst hG
        rw [q.length_eq]
        exact Nat.zero_le _
    | cons e vs =>
      obtain ⟨F', va, vr, GA, p, rfl, h1, h2⟩ := h.depth_first hk hF hd
      have hlen := p.length_eq
      rw [List.length_cons] at hlen
      obtain ⟨j1, j2⟩ := hf e (p.symm.subset List.mem_cons_self) va GA h1
      rw [gathered_cons, gathered_append, List.length_append, List.length_append, List.length_cons, List.length_append]
      rcases h2 with ⟨rfl, hG⟩ | ⟨rfl, h2⟩
      · have h0 : (gathered ([] : List (N.V × Tree))).length = 0 := rfl
        rw [h0, List.length_nil]
        refine ⟨by omega, fun hn => ?_⟩
        subst hn
        have h3 := hG.length_eq
        rw [List.length_nil, List.length_append] at h3
        have := j2 (List.eq_nil_of_length_eq_zero (by omega))
        omega
      · obtain ⟨i1, i2⟩ := ih (by omega) h2 (hF.tail p) (fun a ha => hd a (p.symm.subset (List.mem_cons_of_mem _ ha)))
          (fun a ha => hf a (p.symm.subset (List.mem_cons_of_mem _ ha)))
        have := j2 rfl
        exact ⟨by omega, fun hn => by have := i2 hn; omega⟩

/-- The number of visits: at most twice the numbers gathered plus the depth of the trees; and if nothing is left, less than twice the
numbers gathered for each tree. -/
theorem BestFirst.visits (hk : N.KeyLaws) (D : Nat) : ∀ {F vs G : List (N.V × Tree)}, BestFirst N m F vs G →
    KeysOk N m F → (∀ a ∈ F, a.2.Descends) → (∀ a ∈ F, a.2.Full ∧ a.2.depth ≤ D) →
    vs.length ≤ 2 * (gathered vs).length + D ∧ (G = [] → vs.length + F.length ≤ 2 * (gathered vs).length) := by
  have leaf : ∀ {e : N.V × Tree} {D : Nat}, e.2.own ≠ [] → opened N m e = [] → ∀ va GA, BestFirst N m (opened N m e) va GA →
      va.length + 1 ≤ 2 * (e.2.own.length + (gathered va).length) + D ∧
      (GA = [] → va.length + 2 ≤ 2 * (e.2.own.length + (gathered va).length)) := by
    intro e D h1 h2 va GA h
    rw [h2] at h
    obtain ⟨rfl, -⟩ := h.nil_left
    have := List.length_pos_iff.2 h1
    rw [List.length_nil]
    exact ⟨by omega, fun _ => by omega⟩
  induction D with
  | zero =>
    intro F vs G h hF hd hf
    refine h.visits_forest hk 0 _ (le_refl _) hF hd fun e he => ?_
    obtain ⟨f1, f2⟩ := hf e he
    obtain ⟨d, t⟩ := e
    cases t with
    | split i l r => exact absurd f2 (by simp [Tree.depth])
    | item i => exact leaf f1 rfl
    | hole i => exact leaf f1 rfl
    | bucket i ids => exact leaf f1 rfl
  | succ D ih =>
    intro F vs G h hF hd hf
    refine h.visits_forest hk (D + 1) _ (le_refl _) hF hd fun e he => ?_
    obtain ⟨f1, f2⟩ := hf e he
    have hde := opened_descends (m := m) (hd e he)
    have hop := opened_full (m := m) f1 f2
    have hke := (opened_spec hk (hF e he)).1
    obtain ⟨d, t⟩ := e
    cases t with
    | split i l r =>
      intro va GA hw
      obtain ⟨j1, j2⟩ := ih hw hke (fun a ha => (hde a ha).1) hop
      have : (opened N m (d, .split i l r)).length = 2 := rfl
      exact ⟨by omega, fun hn => by have := j2 hn; omega⟩
    | item i => exact leaf f1 rfl
    | hole i => exact leaf f1 rfl
    | bucket i ids => exact leaf f1 rfl

/-- A walk that stops at a budget. -/
theorem BestFirst.visits_of_budget (hk : N.KeyLaws) {D : Nat} {F vs G : List (N.V × Tree)} (h : BestFirst N m F vs G)
    (hF : KeysOk N m F) (hd : ∀ a ∈ F, a.2.Descends) (hf : ∀ a ∈ F, a.2.Full ∧ a.2.depth ≤ D) {budget : Int}
    (hs : StopsAt budget vs G) : vs.length ≤ 2 * budget.toNat + D := by
  rcases List.eq_nil_or_concat' vs with rfl | ⟨vs₁, e, rfl⟩
  · simp
  · obtain ⟨M, h1, -⟩ := BestFirst.split h
    have h2 := (h1.visits hk D hF hd hf).1
    have h3 := hs.before vs₁ e [] rfl
    rw [List.length_append, List.length_singleton]
    omega

end Annoy
