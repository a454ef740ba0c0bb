import Verif.Spec.BestFirst
import Verif.Spec.Cfg
import Verif.Proof.IeeeConv
import Verif.Proof.SearchRun
/-!
# Best-first walks
-/
namespace Annoy
variable {N : Num} {m : Nat → N.V}

theorem gathered_cons {V : Type} (e : V × Tree) (vs : List (V × Tree)) : gathered (e :: vs) = e.2.own ++ gathered vs := by
  simp [gathered]

theorem gathered_append {V : Type} (vs ws : List (V × Tree)) : gathered (vs ++ ws) = gathered vs ++ gathered ws := by
  simp [gathered]

/-! ### keys -/

theorem Num.KeyLaws.min_le (hk : N.KeyLaws) {x y : N.V} (hx : N.Ordinary x) (hy : N.Ordinary y) :
    N.Ordinary (N.min x y) ∧ N.lt x (N.min x y) = false := by
  rcases hk.min_or x y hx hy with h | h
  · rw [h]; exact ⟨hx, hk.lawful.lt_irrefl x⟩
  · rw [h]
    refine ⟨hy, ?_⟩
    by_contra hc
    rw [Bool.not_eq_false] at hc
    have := hk.min_left x y hc
    rw [h] at this
    rw [this, hk.lawful.lt_irrefl] at hc
    cases hc

/-- `a ≤ b < c`. -/
theorem Num.KeyLaws.lt_of_le_of_lt (hk : N.KeyLaws) {a b d : N.V} (ha : N.Ordinary a) (hab : N.lt b a = false)
    (h : N.lt b d = true) : N.lt a d = true := by
  rcases hk.lawful.trichotomy a b ha (hk.lt_ordinary b d h).1 with h1 | h1 | h1
  · exact hk.lawful.lt_trans a b d h1 h
  · exact hk.lawful.lt_of_eq_of_lt a b d h1 h
  · rw [hab] at h1; cases h1

/-- `a < b ≤ c`. -/
theorem Num.KeyLaws.lt_of_lt_of_le (hk : N.KeyLaws) {a b d : N.V} (hd : N.Ordinary d) (h : N.lt a b = true)
    (hbd : N.lt d b = false) : N.lt a d = true := by
  rcases hk.lawful.trichotomy b d (hk.lt_ordinary a b h).2 hd with h1 | h1 | h1
  · exact hk.lawful.lt_trans a b d h h1
  · exact hk.lawful.lt_of_lt_of_eq a b d h h1
  · rw [hbd] at h1; cases h1

/-- Keys and margins without NaN. -/
def KeysOk (N : Num) (m : Nat → N.V) (F : List (N.V × Tree)) : Prop :=
  ∀ e ∈ F, N.Ordinary e.1 ∧ ∀ i ∈ e.2.splitNodes, N.Ordinary (m i)

theorem KeysOk.perm {F G : List (N.V × Tree)} (h : KeysOk N m F) (p : F.Perm G) : KeysOk N m G :=
  fun e he => h e (p.symm.subset he)

theorem opened_spec (hk : N.KeyLaws) {e : N.V × Tree} (he : N.Ordinary e.1 ∧ ∀ i ∈ e.2.splitNodes, N.Ordinary (m i)) :
    KeysOk N m (opened N m e) ∧ ∀ e' ∈ opened N m e, N.lt e.1 e'.1 = false := by
  obtain ⟨d, t⟩ := e
  cases t with
  | split i l r =>
    obtain ⟨h1, h2⟩ := he
    dsimp only at h1 h2
    simp only [Tree.splitNodes, List.mem_cons, List.mem_append] at h2
    have hi := h2 i (Or.inl rfl)
    have a := hk.min_le h1 (hk.neg_ordinary _ hi)
    have b := hk.min_le h1 hi
    refine ⟨fun e' h => ?_, fun e' h => ?_⟩
    · simp only [opened, List.mem_cons, List.not_mem_nil, or_false] at h
      rcases h with rfl | rfl
      · exact ⟨a.1, fun j hj => h2 j (Or.inr (Or.inl hj))⟩
      · exact ⟨b.1, fun j hj => h2 j (Or.inr (Or.inr hj))⟩
    · simp only [opened, List.mem_cons, List.not_mem_nil, or_false] at h
      rcases h with rfl | rfl
      · exact a.2
      · exact b.2
  | item i => exact ⟨fun _ h => (by simp [opened] at h), fun _ h => (by simp [opened] at h)⟩
  | hole i => exact ⟨fun _ h => (by simp [opened] at h), fun _ h => (by simp [opened] at h)⟩
  | bucket i ids => exact ⟨fun _ h => (by simp [opened] at h), fun _ h => (by simp [opened] at h)⟩

theorem KeysOk.step (hk : N.KeyLaws) {F F' : List (N.V × Tree)} {e : N.V × Tree} (h : KeysOk N m F) (p : F.Perm (e :: F')) :
    KeysOk N m (opened N m e ++ F') := by
  have h' := h.perm p
  intro e' he'
  rcases List.mem_append.1 he' with he' | he'
  · exact (opened_spec hk (h' e (by simp))).1 e' he'
  · exact h' e' (by simp [he'])

/-! ### structure of a walk -/

theorem BestFirst.perm {F F' vs G : List (N.V × Tree)} (h : BestFirst N m F vs G) (p : F'.Perm F) : BestFirst N m F' vs G := by
  cases h with
  | stop q => exact .stop (p.trans q)
  | visit q r s => exact .visit (p.trans q) r s

theorem BestFirst.perm_right {F vs G G' : List (N.V × Tree)} (h : BestFirst N m F vs G) (p : G.Perm G') : BestFirst N m F vs G' := by
  induction h with
  | stop q => exact .stop (q.trans p)
  | visit q r _ ih => exact .visit q r (ih p)

/-- A walk cut in two. -/
theorem BestFirst.split {vs₁ vs₂ : List (N.V × Tree)} : ∀ {F G : List (N.V × Tree)}, BestFirst N m F (vs₁ ++ vs₂) G →
    ∃ M, BestFirst N m F vs₁ M ∧ BestFirst N m M vs₂ G := by
  induction vs₁ with
  | nil => intro F G h; exact ⟨F, .stop (List.Perm.refl _), h⟩
  | cons e vs ih =>
    intro F G h
    cases h with
    | visit q r s =>
      obtain ⟨M, h1, h2⟩ := ih s
      exact ⟨M, .visit q r h1, h2⟩

theorem BestFirst.append {F vs₁ M vs₂ G : List (N.V × Tree)} (h : BestFirst N m F vs₁ M) (h' : BestFirst N m M vs₂ G) :
    BestFirst N m F (vs₁ ++ vs₂) G := by
  induction h with
  | stop q => exact h'.perm q
  | visit q r _ ih => exact .visit q r (ih h')

theorem BestFirst.keysOk (hk : N.KeyLaws) {F vs G : List (N.V × Tree)} (h : BestFirst N m F vs G) (hF : KeysOk N m F) : KeysOk N m G := by
  induction h with
  | stop q => exact hF.perm q
  | visit q _ _ ih => exact ih (hF.step hk q)

theorem BestFirst.nil_left {vs G : List (N.V × Tree)} (h : BestFirst N m [] vs G) : vs = [] ∧ G = [] := by
  cases h with
  | stop q => exact ⟨rfl, q.symm.eq_nil⟩
  | visit q _ _ => have := q.length_eq; simp at this

/-- What was visited and what is left make up all the nodes of the trees, and all their items. -/
theorem BestFirst.content {F vs G : List (N.V × Tree)} (h : BestFirst N m F vs G) :
    (vs.map (fun e => e.2.root) ++ G.flatMap fun e => e.2.nodes).Perm (F.flatMap fun e => e.2.nodes) ∧
    (gathered vs ++ G.flatMap fun e => e.2.items).Perm (F.flatMap fun e => e.2.items) := by
  induction h with
  | stop q => exact ⟨by simpa using (q.symm.flatMap_right _), by simpa [gathered] using (q.symm.flatMap_right _)⟩
  | @visit F e F' vs G q r s ih =>
    obtain ⟨ih1, ih2⟩ := ih
    obtain ⟨d, t⟩ := e
    constructor
    · refine List.Perm.trans ?_ (q.symm.flatMap_right _)
      rw [List.map_cons, List.cons_append]
      refine (List.Perm.cons _ ih1).trans ?_
      cases t <;> simp [opened, Tree.nodes, Tree.root]
    · refine List.Perm.trans ?_ (q.symm.flatMap_right _)
      rw [gathered_cons, List.append_assoc]
      refine (List.Perm.append_left _ ih2).trans ?_
      cases t <;> simp [opened, Tree.items, Tree.own]

/-- Trees whose keys are below all others are served completely before anything else. -/
theorem BestFirst.exhaust (hk : N.KeyLaws) {F vs G : List (N.V × Tree)} (h : BestFirst N m F vs G) :
    ∀ {A R : List (N.V × Tree)}, KeysOk N m F → F.Perm (A ++ R) → (∀ a ∈ A, ∀ r ∈ R, N.lt a.1 r.1 = true) →
    ∃ va vr GA, vs = va ++ vr ∧ BestFirst N m A va GA ∧
      ((vr = [] ∧ G.Perm (GA ++ R)) ∨ (GA = [] ∧ BestFirst N m R vr G)) := by
  induction h with
  | @stop F G q =>
    intro A R _ p _
    exact ⟨[], [], A, rfl, .stop (List.Perm.refl _), Or.inl ⟨rfl, q.symm.trans p⟩⟩
  | @visit F e F' vs G q r s ih =>
    intro A R hF p hlt
    by_cases hA : A = []
    · subst hA
      exact ⟨[], e :: vs, [], rfl, .stop (List.Perm.refl _), Or.inr ⟨rfl, .visit (p.symm.trans q) r s⟩⟩
    · obtain ⟨a, A0, rfl⟩ := List.exists_cons_of_ne_nil hA
      -- the visited entry is one of `A`
      have heA : e ∈ a :: A0 := by
        have he : e ∈ (a :: A0) ++ R := p.subset (q.symm.subset (by simp))
        rcases List.mem_append.1 he with he | he
        · exact he
        · exfalso
          have hae := hlt a (by simp) e he
          have ha : a ∈ e :: F' := q.subset (p.symm.subset (by simp))
          rcases List.mem_cons.1 ha with ha | ha
          · rw [ha, hk.lawful.lt_irrefl] at hae; cases hae
          · exact r a ha (Or.inl hae)
      obtain ⟨s1, s2, hs⟩ := List.append_of_mem heA
      have pA : (a :: A0).Perm (e :: (s1 ++ s2)) := by rw [hs]; exact List.perm_middle
      have pF' : F'.Perm ((s1 ++ s2) ++ R) := by
        have := (q.symm.trans p).trans (pA.append_right R)
        exact this.cons_inv
      have heOk := hF e (q.symm.subset (by simp))
      obtain ⟨b1, b2⟩ := opened_spec hk heOk
      obtain ⟨va, vr, GA, i1, i2, i3⟩ := ih (A := opened N m e ++ (s1 ++ s2)) (R := R) (hF.step hk q) (by
        rw [List.append_assoc]; exact List.Perm.append_left _ pF') (by
        intro a' ha' r' hr'
        rcases List.mem_append.1 ha' with ha' | ha'
        · exact hk.lt_of_le_of_lt (b1 a' ha').1 (b2 a' ha') (hlt e heA r' hr')
        · exact hlt a' (pA.symm.subset (by simp [List.mem_append.1 ha'])) r' hr')
      refine ⟨e :: va, vr, GA, by rw [i1]; rfl, ?_, i3⟩
      refine .visit pA ?_ i2
      intro e' he'
      exact r e' (pF'.symm.subset (List.mem_append_left _ he'))

/-! ### the search loop is a best-first walk -/

/-- The keys of the queue: the smaller of the key of the inner node and its margin, which counts negatively for the left child; a
tree starts with the key infinity. -/
structure MinKeys (c : Cfg) : Prop where
  left : ∀ d x, c.D.pqDistance d x .left = c.N.min d (c.N.neg x)
  right : ∀ d x, c.D.pqDistance d x .right = c.N.min d x
  start : c.D.pqInitialValue = c.N.inf

theorem angular_minKeys {N : Num} {C : Codec N.V} {R : Rng} {sI sP} {k f : Nat} : MinKeys (angularCfg N C R sI sP k f) :=
  ⟨fun _ _ => rfl, fun _ _ => rfl, rfl⟩

theorem dot_minKeys {N : Num} {C : Codec N.V} {R : Rng} {sI sP} {k f : Nat} : MinKeys (dotCfg N C R sI sP k f) :=
  ⟨fun _ _ => rfl, fun _ _ => rfl, rfl⟩

/-- `x` are the margins of the query at the inner nodes of a tree. -/
def MarginsAt (c : Cfg) (mem : Block) (query : List c.N.V) (x : Nat → c.N.V) (t : Tree) : Prop :=
  ∀ i ∈ t.splitNodes, c.D.margin mem.get (i * c.L.nodeSize) query = .ok (x i)

namespace Search
variable {c : Cfg}

/-- The loop is a best-first walk, and pops as many nodes as are visited. -/
theorem collect_visits (hc : c.WF) (hk : c.N.KeyLaws) (hM : MinKeys c) {mem : Block} {n : Nat} {query : List c.N.V} {budget : Int}
    {x : Nat → c.N.V} (fuel : Nat) :
    ∀ {q : List (c.N.V × Nat)} {qt : List (c.N.V × Tree)} {acc : List Nat}, q.Perm (qt.map key) →
    Heap.IsHeap (pairLess c.N) q q.length → KeysOk c.N x qt → (∀ p ∈ qt, MarginsAt c mem query x p.2) →
    (∀ p ∈ qt, Walkable c mem n p.2) → work qt < fuel →
    ∃ vs G : List (c.N.V × Tree), (∀ k, vs.length < k → collect mem n query budget k q acc = .ok (acc ++ gathered vs)) ∧
      BestFirst c.N x qt vs G ∧ StopsAt (budget - acc.length) vs G := by
  induction fuel with
  | zero => intro q qt acc _ _ _ _ _ h; omega
  | succ fuel ih =>
    intro q qt acc hq hheap hkeys hmar hw hf
    have hord := pairOrd hk.lawful
    have hP : ∀ y ∈ q, PairOk c.N y := by
      intro y hy
      obtain ⟨p, hp, rfl⟩ := List.mem_map.1 (hq.subset hy)
      exact (hkeys p hp).1
    by_cases h1 : (acc.length : Int) < budget
    · cases hp : Heap.pop (pairLess c.N) q with
      | none =>
        have := (Heap.pop_none _ _).1 hp
        subst this
        have : qt = [] := List.map_eq_nil_iff.1 hq.symm.eq_nil
        subst this
        refine ⟨[], [], fun k hk => ?_, .stop (List.Perm.refl _), Or.inl rfl, fun vs₁ e vs₂ h => by simp at h⟩
        obtain ⟨k, rfl⟩ : ∃ j, k = j + 1 := ⟨k - 1, by omega⟩
        unfold collect
        rw [if_pos h1, hp]
        simp [gathered]
      | some v =>
        obtain ⟨⟨d, i⟩, q'⟩ := v
        obtain ⟨⟨d', t⟩, qt', k1, k2, k3⟩ := perm_map_cons ((Heap.pop_perm _ _ _ _ hp).trans hq)
        obtain ⟨hheap', -, hmin⟩ := Heap.pop_heap hord q _ _ hP hheap hp
        unfold key at k2
        simp only [Prod.mk.injEq] at k2
        obtain ⟨rfl, rfl⟩ := k2
        have hwt : Walkable c mem n t := hw (d', t) (k1.symm.subset (by simp))
        have hw' : ∀ p ∈ qt', Walkable c mem n p.2 := fun p hp => hw p (k1.symm.subset (by simp [hp]))
        have hmar' : ∀ p ∈ qt', MarginsAt c mem query x p.2 := fun p hp => hmar p (k1.symm.subset (by simp [hp]))
        have hkeys' : KeysOk c.N x qt' := fun p hp => hkeys p (k1.symm.subset (by simp [hp]))
        have hleast : ∀ e' ∈ qt', ¬ PairLt c.N (e'.1, e'.2.root) (d', t.root) := by
          intro e' he'
          have hmem : key e' ∈ q := hq.symm.subset (List.mem_map_of_mem (k1.symm.subset (by simp [he'])))
          exact (pairLess_false c.N _ _).1 (hmin _ hmem)
        have hP' : ∀ y ∈ q', PairOk c.N y := fun y hy =>
          hP y ((Heap.pop_perm _ _ _ _ hp).subset (by simp [hy]))
        rw [work_perm k1, work_cons] at hf
        dsimp only at hf
        have stops : ∀ {vs G : List (c.N.V × Tree)} (t' : Tree), StopsAt (budget - (acc ++ t'.own).length) vs G →
            StopsAt (budget - acc.length) ((d', t') :: vs) G := by
          intro vs G t' hs
          refine ⟨?_, ?_⟩
          · rcases hs.finished with h | h
            · exact Or.inl h
            · right
              rw [gathered_cons]
              simp only [List.length_append] at h ⊢
              push_cast at h ⊢
              omega
          · intro vs₁ e vs₂ h
            cases vs₁ with
            | nil => simp [gathered]; omega
            | cons e1 vs₁ =>
              rw [List.cons_append, List.cons.injEq] at h
              have := hs.before vs₁ e vs₂ h.2
              rw [← h.1, gathered_cons]
              simp only [List.length_append] at this ⊢
              push_cast at this ⊢
              omega
        have fin : ∀ ids : List Nat, t.own = ids → opened c.N x (d', t) = [] →
            ∃ vs G : List (c.N.V × Tree),
              (∀ k, vs.length < k + 1 → collect mem n query budget k q' (acc ++ ids) = .ok (acc ++ gathered vs)) ∧
              BestFirst c.N x qt vs G ∧ StopsAt (budget - acc.length) vs G := by
          intro ids e1 e2
          have hs : 1 ≤ t.size := by cases t <;> simp [Tree.size]
          obtain ⟨vs, G, r1, r2, r3⟩ := ih (acc := acc ++ ids) k3 hheap' hkeys' hmar' hw' (by omega)
          refine ⟨(d', t) :: vs, G, ?_, ?_, ?_⟩
          · intro k hk
            rw [List.length_cons] at hk
            rw [r1 k (by omega), gathered_cons, e1, List.append_assoc]
          · exact .visit k1 hleast (by rw [e2]; exact r2)
          · rw [← e1] at r3; exact stops t r3
        have hh := hwt.holds
        have hroot := hwt.root
        have step : ∀ k, collect mem n query budget (k + 1) q acc = collect mem n query budget (k + 1) q acc := fun _ => rfl
        conv at step => enter [k]; rhs; unfold collect
        simp only [if_pos h1, hp, hroot, bind, Except.bind] at step
        generalize hi : t.root = i0 at step hroot
        have done : ∀ ids : List Nat, (∀ k, collect mem n query budget (k + 1) q acc = collect mem n query budget k q' (acc ++ ids)) →
            t.own = ids → opened c.N x (d', t) = [] →
            ∃ vs G : List (c.N.V × Tree), (∀ k, vs.length < k → collect mem n query budget k q acc = .ok (acc ++ gathered vs)) ∧
              BestFirst c.N x qt vs G ∧ StopsAt (budget - acc.length) vs G := by
          intro ids e0 e1 e2
          obtain ⟨vs, G, r1, r2, r3⟩ := fin ids e1 e2
          refine ⟨vs, G, fun k hk => ?_, r2, r3⟩
          obtain ⟨k, rfl⟩ : ∃ j, k = j + 1 := ⟨k - 1, by omega⟩
          rw [e0, r1 k hk]
        cases t with
        | item i =>
          change i = i0 at hi
          subst hi
          have hnd : Node.nDesc c.L mem.get (i * c.L.nodeSize) = 1 := hh.2
          simp only [if_pos (show Node.nDesc c.L mem.get (i * c.L.nodeSize) = 1 ∧ i < n from ⟨hnd, hh.1⟩)] at step
          exact done [i] step rfl rfl
        | hole i =>
          have hh : ndAt c.L mem.get i = 0 := hh
          have e0 : Node.nDesc c.L mem.get (i * c.L.nodeSize) = 0 := hh
          change i = i0 at hi
          subst hi
          have hz : ¬ (Node.nDesc c.L mem.get (i * c.L.nodeSize) = 1 ∧ i < n) := by omega
          have hz' : Node.nDesc c.L mem.get (i * c.L.nodeSize) ≤ c.L.K := by omega
          simp only [if_neg hz, if_pos hz'] at step
          have : Node.getChildren c.L mem.get (i * c.L.nodeSize) = [] := by
            apply List.eq_nil_of_length_eq_zero
            rw [Node.getChildren_length]; exact hh
          simp only [this] at step
          exact done [] step rfl rfl
        | bucket i ids =>
          obtain ⟨g1, g2, g3⟩ := hh
          change i = i0 at hi
          subst hi
          have g2' : Node.nDesc c.L mem.get (i * c.L.nodeSize) ≤ c.L.K := g2
          have g3' : Node.getChildren c.L mem.get (i * c.L.nodeSize) = ids := g3
          have hz : ¬ (Node.nDesc c.L mem.get (i * c.L.nodeSize) = 1 ∧ i < n) := fun q => g1 ⟨q.2, q.1⟩
          simp only [if_neg hz, if_pos g2', g3'] at step
          exact done ids step rfl rfl
        | split i l r =>
          obtain ⟨g1, g2, g3, g4, g5⟩ := hh
          have hK := hc.layout.K_ge
          change i = i0 at hi
          subst hi
          have g1' : c.L.K < Node.nDesc c.L mem.get (i * c.L.nodeSize) := g1
          have hz : ¬ (Node.nDesc c.L mem.get (i * c.L.nodeSize) = 1 ∧ i < n) := by omega
          have hz' : ¬ Node.nDesc c.L mem.get (i * c.L.nodeSize) ≤ c.L.K := by omega
          simp only [if_neg hz, if_neg hz'] at step
          have hmart := hmar (d', .split i l r) (k1.symm.subset (by simp))
          unfold MarginsAt at hmart
          simp only [Tree.splitNodes, List.mem_cons, List.mem_append] at hmart
          simp only [hmart i (Or.inl rfl), hM.left, hM.right] at step
          have hn := hwt.nodes
          simp only [Tree.nodes, List.mem_cons, List.mem_append] at hn
          have hstep := hkeys.step hk k1
          have hl : (c.N.min d' (c.N.neg (x i)), l) ∈ opened c.N x (d', .split i l r) ++ qt' := by simp [opened]
          have hr : (c.N.min d' (x i), r) ∈ opened c.N x (d', .split i l r) ++ qt' := by simp [opened]
          have hpr : PairOk c.N (c.N.min d' (x i), Node.child c.L mem.get (i * c.L.nodeSize) 1) := (hstep _ hr).1
          have hpl : PairOk c.N (c.N.min d' (c.N.neg (x i)), Node.child c.L mem.get (i * c.L.nodeSize) 0) := (hstep _ hl).1
          have hh1 := Heap.push_heap hord q' _ hP' hpr hheap'
          have hP1 : ∀ y ∈ Heap.push (pairLess c.N) q' (c.N.min d' (x i), Node.child c.L mem.get (i * c.L.nodeSize) 1),
              PairOk c.N y := by
            intro y hy
            rcases List.mem_cons.1 ((Heap.push_perm _ _ _).subset hy) with rfl | hy
            · exact hpr
            · exact hP' y hy
          have hh2 := Heap.push_heap hord _ _ hP1 hpl hh1
          obtain ⟨vs, G, r1, r2, r3⟩ := ih (acc := acc)
            (qt := opened c.N x (d', .split i l r) ++ qt') (by
              refine (Heap.push_perm _ _ _).trans ?_
              have e1 : key (c.N.min d' (c.N.neg (x i)), l)
                  = (c.N.min d' (c.N.neg (x i)), Node.child c.L mem.get (i * c.L.nodeSize) 0) :=
                congrArg _ g2.symm
              have e2 : key (c.N.min d' (x i), r)
                  = (c.N.min d' (x i), Node.child c.L mem.get (i * c.L.nodeSize) 1) :=
                congrArg _ g3.symm
              unfold opened
              rw [List.cons_append, List.cons_append, List.nil_append, List.map_cons, List.map_cons, e1, e2]
              exact List.Perm.cons _ ((Heap.push_perm _ _ _).trans (List.Perm.cons _ k3))) hh2 hstep (by
              intro p hp
              unfold opened at hp
              rw [List.cons_append, List.cons_append, List.nil_append] at hp
              rcases List.mem_cons.1 hp with rfl | hp
              · exact fun i hi => hmart i (Or.inr (Or.inl hi))
              · rcases List.mem_cons.1 hp with rfl | hp
                · exact fun i hi => hmart i (Or.inr (Or.inr hi))
                · exact hmar' p hp) (by
              intro p hp
              unfold opened at hp
              rw [List.cons_append, List.cons_append, List.nil_append] at hp
              rcases List.mem_cons.1 hp with rfl | hp
              · exact ⟨g4, fun i hi => hn i (Or.inr (Or.inl hi))⟩
              · rcases List.mem_cons.1 hp with rfl | hp
                · exact ⟨g5, fun i hi => hn i (Or.inr (Or.inr hi))⟩
                · exact hw' p hp) (by
              unfold opened
              rw [List.cons_append, List.cons_append, List.nil_append, work_cons, work_cons]
              simp only [Tree.size] at hf
              dsimp only
              omega)
          refine ⟨(d', .split i l r) :: vs, G, fun k hk => ?_, .visit k1 hleast r2, stops _ (by simpa [Tree.own] using r3)⟩
          rw [List.length_cons] at hk
          obtain ⟨k, rfl⟩ : ∃ j, k = j + 1 := ⟨k - 1, by omega⟩
          rw [step, r1 k (by omega), gathered_cons]; rfl
    · refine ⟨[], qt, fun k hk => ?_, .stop (List.Perm.refl _), Or.inr ?_, fun vs₁ e vs₂ h => by simp at h⟩
      · obtain ⟨k, rfl⟩ : ∃ j, k = j + 1 := ⟨k - 1, by omega⟩
        unfold collect
        rw [if_neg h1]
        simp [gathered]
      · simp [gathered]; omega

/-- A walk visits no more nodes than there are. -/
theorem visits_le_work {x : Nat → c.N.V} {F vs G : List (c.N.V × Tree)} (h : BestFirst c.N x F vs G) : vs.length + work G = work F := by
  induction h with
  | stop q => rw [work_perm q, List.length_nil, Nat.zero_add]
  | @visit F e F' vs G q r s ih =>
    obtain ⟨d, t⟩ := e
    rw [work_perm q, work_cons, List.length_cons]
    have : work (opened c.N x (d, t)) + 1 = t.size := by
      cases t <;> simp [opened, work, Tree.size]
    have h2 : work (opened c.N x (d, t) ++ F') = work (opened c.N x (d, t)) + work F' := by simp [work]
    dsimp only
    omega

theorem collect_bestFirst (hc : c.WF) (hk : c.N.KeyLaws) (hM : MinKeys c) {mem : Block} {n : Nat} {query : List c.N.V} {budget : Int}
    {x : Nat → c.N.V} (fuel : Nat) {q : List (c.N.V × Nat)} {qt : List (c.N.V × Tree)} {acc : List Nat} (hq : q.Perm (qt.map key))
    (hh : Heap.IsHeap (pairLess c.N) q q.length) (hx : KeysOk c.N x qt) (hm : ∀ p ∈ qt, MarginsAt c mem query x p.2)
    (hw : ∀ p ∈ qt, Walkable c mem n p.2) (hf : work qt < fuel) :
    ∃ vs G : List (c.N.V × Tree), collect mem n query budget fuel q acc = .ok (acc ++ gathered vs) ∧
      BestFirst c.N x qt vs G ∧ StopsAt (budget - acc.length) vs G := by
  obtain ⟨vs, G, r1, r2, r3⟩ := collect_visits hc hk hM fuel hq hh hx hm hw hf (acc := acc) (budget := budget)
  exact ⟨vs, G, r1 fuel (by have := visits_le_work r2; omega), r2, r3⟩

theorem initQueue_heap (hN : c.N.Lawful) (h0 : c.N.Ordinary c.D.pqInitialValue) (roots : List Nat) :
    Heap.IsHeap (pairLess c.N) (initQueue c roots) (initQueue c roots).length := by
  unfold initQueue
  have : ∀ q : List (c.N.V × Nat), (∀ y ∈ q, PairOk c.N y) → Heap.IsHeap (pairLess c.N) q q.length →
      Heap.IsHeap (pairLess c.N) (roots.foldl (fun q r => Heap.push (pairLess c.N) q (c.D.pqInitialValue, r)) q)
        (roots.foldl (fun q r => Heap.push (pairLess c.N) q (c.D.pqInitialValue, r)) q).length := by
    induction roots with
    | nil => intro q _ h; exact h
    | cons r roots ih =>
      intro q hP hh
      rw [List.foldl_cons]
      refine ih _ ?_ (Heap.push_heap (pairOrd hN) q _ hP h0 hh)
      intro y hy
      rcases List.mem_cons.1 ((Heap.push_perm _ _ _).subset hy) with rfl | hy
      · exact h0
      · exact hP y hy
  exact this [] (by simp) (by intro k _ h; simp at h)

variable {mem : Block} {n : Nat} {roots : List Nat} {m : Nat → Option (List c.N.V)} {ts : List Tree}

/-- The candidates of a search are gathered by a best-first walk from the roots. -/
theorem collect_walk_visits (hc : c.WF) (hk : c.N.KeyLaws) (hM : MinKeys c) (h : Searchable c mem n roots m ts) {query : List c.N.V}
    {x : Nat → c.N.V} (hx : ∀ t ∈ ts, MarginsAt c mem query x t) (ho : ∀ t ∈ ts, ∀ i ∈ t.splitNodes, c.N.Ordinary (x i))
    {budget : Int} :
    ∃ vs G, (∀ k, vs.length < k → collect mem n query budget k (initQueue c roots) [] = .ok (gathered vs)) ∧
      vs.length ≤ Tree.sizes ts ∧
      BestFirst c.N x (ts.map fun t => (c.N.inf, t)) vs G ∧ StopsAt budget vs G := by
  have h0 : c.N.Ordinary c.D.pqInitialValue := by rw [hM.start]; exact hk.inf_ordinary
  have hq : (initQueue c roots).Perm ((ts.map fun t => (c.N.inf, t)).map key) := by
    refine (initQueue_perm roots).trans ?_
    rw [← h.roots, List.map_map, List.map_map, hM.start]
    exact List.Perm.refl _
  obtain ⟨vs, G, r1, r2, r3⟩ := collect_visits hc hk hM (mem := mem) (n := n) (query := query) (budget := budget) (x := x)
    (Tree.sizes ts + 1) (acc := []) hq (initQueue_heap hk.lawful h0 roots) (by
      intro p hp
      obtain ⟨t, ht, rfl⟩ := List.mem_map.1 hp
      exact ⟨hk.inf_ordinary, ho t ht⟩) (by
      intro p hp
      obtain ⟨t, ht, rfl⟩ := List.mem_map.1 hp
      exact hx t ht) (by
      intro p hp
      obtain ⟨t, ht, rfl⟩ := List.mem_map.1 hp
      exact h.walk t ht) (by
      unfold work
      rw [List.map_map]
      exact Nat.lt_succ_self _)
  refine ⟨vs, G, by simpa using r1, ?_, r2, by simpa using r3⟩
  have h1 := visits_le_work r2
  have h2 : work (ts.map fun t => (c.N.inf, t)) = Tree.sizes ts := by
    unfold work
    rw [List.map_map]
    rfl
  omega

theorem collect_walk (hc : c.WF) (hk : c.N.KeyLaws) (hM : MinKeys c) (h : Searchable c mem n roots m ts) {query : List c.N.V}
    {x : Nat → c.N.V} (hx : ∀ t ∈ ts, MarginsAt c mem query x t) (ho : ∀ t ∈ ts, ∀ i ∈ t.splitNodes, c.N.Ordinary (x i))
    {budget : Int} {fuel : Nat} (hf : Tree.sizes ts < fuel) :
    ∃ vs G, collect mem n query budget fuel (initQueue c roots) [] = .ok (gathered vs) ∧
      BestFirst c.N x (ts.map fun t => (c.N.inf, t)) vs G ∧ StopsAt budget vs G := by
  obtain ⟨vs, G, r1, r2, r3⟩ := collect_walk_visits hc hk hM h hx ho (budget := budget)
  exact ⟨vs, G, r1 fuel (by omega), r3⟩

end Search
end Annoy
