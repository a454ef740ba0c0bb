import Verif.Model.Verbose
import Verif.Proof.Schedule
import Verif.Props.Conc
import Verif.Props.Finish
/-!
# Verbose logging (C95)
-/
namespace Annoy
open Conc

/-! ### A verbose worker does what a silent one does -/

/-- `p` is `q` with dumps inserted. -/
inductive Erases {c : Cfg} : Prog c → Prog c → Prop where
  | done : Erases .done .done
  | fail (e) : Erases (.fail e) (.fail e)
  | lockN {k k'} : Erases k k' → Erases (.lockN k) (.lockN k')
  | unlockN {k k'} : Erases k k' → Erases (.unlockN k) (.unlockN k')
  | rlock {k k'} : Erases k k' → Erases (.rlock k) (.rlock k')
  | runlock {k k'} : Erases k k' → Erases (.runlock k) (.runlock k')
  | wlock {k k'} : Erases k k' → Erases (.wlock k) (.wlock k')
  | wunlock {k k'} : Erases k k' → Erases (.wunlock k) (.wunlock k')
  | lockR {k k'} : Erases k k' → Erases (.lockR k) (.lockR k')
  | unlockR {k k'} : Erases k k' → Erases (.unlockR k) (.unlockR k')
  | readN {k k'} : (∀ v, Erases (k v) (k' v)) → Erases (.readN k) (.readN k')
  | setN {v k k'} : Erases k k' → Erases (.setN v k) (.setN v k')
  | readSize {k k'} : (∀ v, Erases (k v) (k' v)) → Erases (.readSize k) (.readSize k')
  | grow {z k k'} : Erases k k' → Erases (.grow z k) (.grow z k')
  | read {β : Type} {f : Block → c.R.σ → Except Err (β × c.R.σ)} {k k' : β → Prog c} :
      (∀ v, Erases (k v) (k' v)) → Erases (.read f k) (.read f k')
  | write {i g k k'} : Erases k k' → Erases (.write i g k) (.write i g k')
  | rand {ids} {k k' : List Nat → List Nat → Prog c} : (∀ l r, Erases (k l r) (k' l r)) → Erases (.rand ids k) (.rand ids k')
  | readRoots {k k'} : (∀ v, Erases (k v) (k' v)) → Erases (.readRoots k) (.readRoots k')
  | setRoots {rs k k'} : Erases k k' → Erases (.setRoots rs k) (.setRoots rs k')
  | dump {i k k'} : Erases k k' → Erases (.dump i k) k'

namespace Erases
variable {c : Cfg}

theorem takeNode {k k' : Nat → Prog c} (h : ∀ i, Erases (k i) (k' i)) : Erases (Prog.takeNode k) (Prog.takeNode k') := by
  unfold Prog.takeNode
  refine .lockN (.readN fun v => .readSize fun z => ?_)
  split
  · exact .wlock (.readSize fun z => .grow (.wunlock (.readN fun i => .readN fun v => .setN (.unlockN (h i)))))
  · exact .readN fun i => .readN fun v => .setN (.unlockN (h i))

theorem bucket {n : Nat} {ids : List Nat} {b : Bool} {k k' : Nat → Prog c} (h : ∀ i, Erases (k i) (k' i)) :
    Erases (Prog.bucket n ids b k) (Prog.bucket n ids b k') := by
  unfold Prog.bucket
  refine takeNode fun i => .rlock (.write ?_)
  dsimp only
  split
  · exact .write (.runlock (h i))
  · exact .runlock (h i)

theorem place {m : Bytes} {k k' : Nat → Prog c} (h : ∀ i, Erases (k i) (k' i)) : Erases (Prog.place m k) (Prog.place m k') :=
  takeNode fun i => .rlock (.write (.runlock (h i)))

theorem sides {m : Bytes} (ids : List Nat) {k k' : List Nat → List Nat → Prog c} (h : ∀ l r, Erases (k l r) (k' l r)) :
    Erases (Prog.sides m ids k) (Prog.sides m ids k') := by
  induction ids generalizing k k' with
  | nil => exact h _ _
  | cons j js ih =>
    refine .read fun sd => ih fun l r => ?_
    cases sd
    · exact h _ _
    · exact h _ _

theorem attempts {addrs ids : List Nat} (j : Nat) (m : Bytes) (l rt : List Nat) {k k' : Bytes → List Nat → List Nat → Prog c}
    (h : ∀ m l r, Erases (k m l r) (k' m l r)) : Erases (Prog.attempts addrs ids j m l rt k) (Prog.attempts addrs ids j m l rt k') := by
  induction j generalizing m l rt with
  | zero => exact h _ _ _
  | succ j ih =>
    refine .read fun m => sides ids fun l r => ?_
    split
    · exact h _ _ _
    · exact ih _ _ _

theorem choose {ids : List Nat} {k k' : Bytes → List Nat → List Nat → Prog c} (h : ∀ m l r, Erases (k m l r) (k' m l r)) :
    Erases (Prog.choose ids k) (Prog.choose ids k') := by
  refine .rlock (.read fun addrs => attempts _ _ _ _ fun m l r => .runlock ?_)
  split
  · exact h _ _ _
  · exact .rand fun l r => h _ _ _

theorem scan (is : List Nat) (acc : List Nat) {k k' : List Nat → Prog c} (h : ∀ l, Erases (k l) (k' l)) :
    Erases (Prog.scan is acc k) (Prog.scan is acc k') := by
  induction is generalizing acc with
  | nil => exact h _
  | cons i is ih => exact .read fun nd => ih _

theorem makeTree (n fuel : Nat) (ids : List Nat) (b : Bool) {k k' : Nat → Prog c} (h : ∀ i, Erases (k i) (k' i)) :
    Erases (Prog.makeTreeV n fuel ids b k) (Prog.makeTree n fuel ids b k') := by
  induction fuel generalizing ids b k k' with
  | zero => exact .fail _
  | succ fuel ih =>
    have main : ∀ (ids : List Nat) (b : Bool), Erases
        (if ids.length ≤ c.L.K ∧ (b = false ∨ n ≤ c.L.K ∨ ids.length = 1) then Prog.bucket n ids b fun item => .dump item (k item)
        else Prog.choose ids fun m l rt =>
          let m := Node.setNDesc c.L m 0 (if b then n else ids.length)
          if l.length > rt.length then
            Prog.makeTreeV n fuel rt false fun cr => Prog.makeTreeV n fuel l false fun cl =>
              Prog.place (Node.setChildren c.L m 0 [cl, cr]) fun item => .dump item (k item)
          else
            Prog.makeTreeV n fuel l false fun cl => Prog.makeTreeV n fuel rt false fun cr =>
              Prog.place (Node.setChildren c.L m 0 [cl, cr]) fun item => .dump item (k item))
        (if ids.length ≤ c.L.K ∧ (b = false ∨ n ≤ c.L.K ∨ ids.length = 1) then Prog.bucket n ids b k'
        else Prog.choose ids fun m l rt =>
          let m := Node.setNDesc c.L m 0 (if b then n else ids.length)
          if l.length > rt.length then
            Prog.makeTree n fuel rt false fun cr => Prog.makeTree n fuel l false fun cl =>
              Prog.place (Node.setChildren c.L m 0 [cl, cr]) k'
          else
            Prog.makeTree n fuel l false fun cl => Prog.makeTree n fuel rt false fun cr =>
              Prog.place (Node.setChildren c.L m 0 [cl, cr]) k') := by
      intro ids b
      split
      · exact bucket fun i => .dump (h i)
      · refine choose fun m l r => ?_
        dsimp only
        split
        · exact ih _ _ fun i => ih _ _ fun j => place fun i => .dump (h i)
        · exact ih _ _ fun i => ih _ _ fun j => place fun i => .dump (h i)
    rcases ids with _ | ⟨j, _ | ⟨j', js⟩⟩ <;> cases b
    · exact main [] false
    · exact main [] true
    · exact h j
    · exact main [j] true
    · exact main (j :: j' :: js) false
    · exact main (j :: j' :: js) true

theorem thread (n : Nat) (trees : Int) (fuel : Nat) (rs : List Nat) :
    Erases (Prog.threadV (c := c) n trees fuel rs) (Prog.thread n trees fuel rs) := by
  induction fuel generalizing rs with
  | zero => exact .fail _
  | succ fuel ih =>
    have stop : Erases (c := c) (.lockR (.readRoots fun old => .setRoots (old ++ rs) (.unlockR .done)))
        (.lockR (.readRoots fun old => .setRoots (old ++ rs) (.unlockR .done))) := .lockR (.readRoots fun _ => .setRoots (.unlockR .done))
    unfold Prog.threadV Prog.thread
    dsimp only
    split
    · refine .lockN (.readN fun v => .unlockN ?_)
      split
      · exact stop
      · exact .rlock (scan _ _ fun ids => .runlock (makeTree _ _ _ _ fun root => ih _))
    · split
      · exact stop
      · exact .rlock (scan _ _ fun ids => .runlock (makeTree _ _ _ _ fun root => ih _))

end Erases

/-- Equal up to the generator's state. -/
def Idx.Alike {c : Cfg} (s t : Idx c) : Prop := ∃ r, t = { s with rng := r }

theorem Idx.Alike.refl {c : Cfg} (s : Idx c) : s.Alike s := ⟨s.rng, rfl⟩

theorem TStep.erase {c : Cfg} {o : List Held} {s s' t : Idx c} {h h' : Held} {p p' q : Prog c} (st : TStep o s h p s' h' p')
    (he : Erases p q) (ha : s.Alike t) :
    (h' = h ∧ s'.Alike t ∧ Erases p' q) ∨ ∃ t' q', TStep o t h q t' h' q' ∧ s'.Alike t' ∧ Erases p' q' := by
  obtain ⟨r0, rfl⟩ := ha
  cases st with
  | lockN a b => cases he with | lockN e => exact Or.inr ⟨_, _, .lockN a b, ⟨r0, rfl⟩, e⟩
  | unlockN a => cases he with | unlockN e => exact Or.inr ⟨_, _, .unlockN a, ⟨r0, rfl⟩, e⟩
  | rlock a b d => cases he with | rlock e => exact Or.inr ⟨_, _, .rlock a b d, ⟨r0, rfl⟩, e⟩
  | runlock a => cases he with | runlock e => exact Or.inr ⟨_, _, .runlock a, ⟨r0, rfl⟩, e⟩
  | announce a b => cases he with | wlock e => exact Or.inr ⟨_, _, .announce a b, ⟨r0, rfl⟩, .wlock e⟩
  | wlock a b d => cases he with | wlock e => exact Or.inr ⟨_, _, .wlock a b d, ⟨r0, rfl⟩, e⟩
  | wunlock a => cases he with | wunlock e => exact Or.inr ⟨_, _, .wunlock a, ⟨r0, rfl⟩, e⟩
  | lockR a b => cases he with | lockR e => exact Or.inr ⟨_, _, .lockR a b, ⟨r0, rfl⟩, e⟩
  | unlockR a => cases he with | unlockR e => exact Or.inr ⟨_, _, .unlockR a, ⟨r0, rfl⟩, e⟩
  | readN => cases he with | readN e => exact Or.inr ⟨_, _, .readN, ⟨r0, rfl⟩, e _⟩
  | setN => cases he with | setN e => exact Or.inr ⟨_, _, .setN, ⟨r0, rfl⟩, e⟩
  | readSize => cases he with | readSize e => exact Or.inr ⟨_, _, .readSize, ⟨r0, rfl⟩, e _⟩
  | growBegin a => cases he with | grow e => exact Or.inr ⟨_, _, .growBegin a, ⟨r0, rfl⟩, .grow e⟩
  | growEnd a => cases he with | grow e => exact Or.inr ⟨_, _, .growEnd a, ⟨r0, rfl⟩, e⟩
  | read r r' a =>
    cases he with
    | read e => exact Or.inr ⟨_, _, .read r r' a, ⟨r', rfl⟩, e _⟩
    | dump e => exact Or.inl ⟨rfl, ⟨r0, rfl⟩, e⟩
  | readErr r a =>
    cases he with
    | read e => exact Or.inr ⟨_, _, .readErr r a, ⟨r0, rfl⟩, .fail _⟩
    | dump e => cases a
  | write a => cases he with | write e => exact Or.inr ⟨_, _, .write a, ⟨r0, rfl⟩, e⟩
  | writeErr a => cases he with | write e => exact Or.inr ⟨_, _, .writeErr a, ⟨r0, rfl⟩, .fail _⟩
  | rand r r' a b => cases he with | rand e => exact Or.inr ⟨_, _, .rand r r' a b, ⟨r', rfl⟩, e _ _⟩
  | spin r r' a b => cases he with | rand e => exact Or.inr ⟨_, _, .spin r r' a b, ⟨r', rfl⟩, .rand e⟩
  | readRoots => cases he with | readRoots e => exact Or.inr ⟨_, _, .readRoots, ⟨r0, rfl⟩, e _⟩
  | setRoots => cases he with | setRoots e => exact Or.inr ⟨_, _, .setRoots, ⟨r0, rfl⟩, e⟩

/-- A configuration of verbose workers and the same of silent ones. -/
structure Conf.Erases {c : Cfg} (x y : Conf c) : Prop where
  idx : x.idx.Alike y.idx
  ths : List.Forall₂ (fun a b => a.1 = b.1 ∧ Annoy.Erases a.2 b.2) x.ths y.ths

theorem forall₂_split {α β : Type*} {R : α → β → Prop} : ∀ {pre post : List α} {a : α} {l : List β}, List.Forall₂ R (pre ++ a :: post) l →
    ∃ pre' b post', l = pre' ++ b :: post' ∧ List.Forall₂ R pre pre' ∧ R a b ∧ List.Forall₂ R post post'
  | [], post, a, _, .cons h t => ⟨[], _, _, rfl, .nil, h, t⟩
  | p :: pre, post, a, _, .cons h t => by
    obtain ⟨pre', b, post', rfl, h1, h2, h3⟩ := forall₂_split t
    exact ⟨_ :: pre', b, post', rfl, .cons h h1, h2, h3⟩

theorem forall₂_fst {c : Cfg} {l l' : List (Held × Prog c)} (h : List.Forall₂ (fun a b => a.1 = b.1 ∧ Annoy.Erases a.2 b.2) l l') :
    l.map Prod.fst = l'.map Prod.fst := by
  induction h with
  | nil => rfl
  | cons h _ ih => simp [h.1, ih]

theorem forall₂_app {α β : Type*} {R : α → β → Prop} {a b : List α} {a' b' : List β} (h : List.Forall₂ R a a') (h' : List.Forall₂ R b b') :
    List.Forall₂ R (a ++ b) (a' ++ b') := by
  induction h with
  | nil => exact h'
  | cons h _ ih => exact .cons h ih

theorem Step.erase {c : Cfg} {x x' y : Conf c} (st : Step x x') (he : x.Erases y) : x'.Erases y ∨ ∃ y', Step y y' ∧ x'.Erases y' := by
  cases st with
  | @mk s s' h h' p p' pre post st =>
  obtain ⟨t, l⟩ := y
  obtain ⟨hi, ht⟩ := he
  obtain ⟨pre', ⟨hq, q⟩, post', rfl, h1, ⟨h2, h2'⟩, h3⟩ := forall₂_split ht
  dsimp only at h2 h2'
  subst h2
  have ho : (pre ++ post).map Prod.fst = (pre' ++ post').map Prod.fst := by
    rw [List.map_append, List.map_append, forall₂_fst h1, forall₂_fst h3]
  rcases st.erase h2' hi with ⟨rfl, g1, g2⟩ | ⟨t', q', g1, g2, g3⟩
  · exact Or.inl ⟨g1, forall₂_app h1 (.cons ⟨rfl, g2⟩ h3)⟩
  · rw [ho] at g1
    exact Or.inr ⟨_, .mk pre' post' g1, g2, forall₂_app h1 (.cons ⟨rfl, g3⟩ h3)⟩

theorem Steps.erase {c : Cfg} {x x' y : Conf c} (st : Steps x x') (he : x.Erases y) : ∃ y', Steps y y' ∧ x'.Erases y' := by
  induction st with
  | refl => exact ⟨y, .refl _, he⟩
  | tail _ st ih =>
    obtain ⟨y', g1, g2⟩ := ih
    rcases st.erase g2 with h | ⟨y'', h1, h2⟩
    · exact ⟨y', g1, h⟩
    · exact ⟨y'', .tail g1 h1, h2⟩

theorem startWorkersV_erases {c : Cfg} (s : Idx c) (trees : Int) (W : Nat) : (startWorkersV s trees W).Erases (startWorkers s trees W) := by
  refine ⟨.refl _, ?_⟩
  unfold startWorkersV startWorkers
  dsimp only
  induction List.range W with
  | nil => exact .nil
  | cons w ws ih => exact .cons ⟨rfl, Erases.thread _ _ _ _⟩ ih

/-- **C95**, no influence: whatever configuration the workers of a verbose build reach, the workers of a silent build reach one with the same locks, memory,
counters and roots: only the state of the shared generator may be different (which is up to the schedule anyway).  If all verbose workers are done, so
are the silent ones. -/
theorem C95_no_influence {c : Cfg} (s : Idx c) (trees : Int) (W : Nat) {x : Conf c} (st : Steps (startWorkersV s trees W) x) :
    ∃ y, Steps (startWorkers s trees W) y ∧ x.idx.Alike y.idx ∧ x.ths.map Prod.fst = y.ths.map Prod.fst ∧ (x.Finished → y.Finished) := by
  obtain ⟨y, h1, h2⟩ := st.erase (startWorkersV_erases s trees W)
  refine ⟨y, h1, h2.idx, forall₂_fst h2.ths, fun hf => ?_⟩
  have : ∀ {l l' : List (Held × Prog c)}, List.Forall₂ (fun a b => a.1 = b.1 ∧ Annoy.Erases a.2 b.2) l l' → (∀ t ∈ l, t.2 = .done) → ∀ t ∈ l', t.2 = .done := by
    intro l l' hh
    induction hh with
    | nil => intro _ t ht; cases ht
    | @cons a b l l' h _ ih =>
      intro hd t ht
      rcases List.mem_cons.1 ht with rfl | ht
      · have ha := hd a (List.mem_cons_self ..)
        have he := h.2
        rw [ha] at he
        generalize t.2 = q at he
        cases he
        rfl
      · exact ih (fun t ht => hd t (List.mem_cons_of_mem _ ht)) t ht
  exact this h2.ths hf

/-! ### A dump stays inside its node -/

/-- **C95**, inside: what `DumpNode` shows depends on the bytes of the node only, whatever they are. -/
theorem C95_inside {V : Type} (L : Layout) (C : Codec V) (hL : L.Ok C.sz) (b b' : Bytes) (a a' : Nat)
    (h : ∀ j, j < L.nodeSize → b (a + j) = b' (a' + j)) : dumpNode L C b a = dumpNode L C b' a' := by
  have hs : Node.Same L.nodeSize b a b' a' := h
  have hK := hL.K_fits
  have hsz := hL.size_eq
  have ho := hL.offV_ge
  have hn := hL.norm_fits
  have e1 : Node.nDesc L b a = Node.nDesc L b' a' := Node.nDesc_congr (hs.mono (by omega))
  have e2 : Node.vec L C b a = Node.vec L C b' a' := Node.vec_congr C fun j hj => by
    have := h (L.offV + j) (by omega)
    simpa [Nat.add_assoc] using this
  have e3 : Node.norm L C b a = Node.norm L C b' a' := Node.norm_congr C fun j hj => by
    have := h (L.szIX + j) (by omega)
    simpa [Nat.add_assoc] using this
  unfold dumpNode
  dsimp only
  rw [e1, e2, e3]
  split
  · rfl
  · split
    · next hk =>
      rw [Node.getChildren_congr hs (by omega) (by
        rw [e1]
        have := Nat.mul_le_mul_right L.szIX hk
        omega)]
    · rfl

/-- **C95**, place: the dump of node `i` shows that node: it is the same for all memories with these bytes of the node. -/
theorem C95_place {c : Cfg} (hc : c.WF) (i : Nat) (k : Prog c) :
    ∃ (α : Type) (f : Block → c.R.σ → Except Err (α × c.R.σ)) (k' : α → Prog c), Prog.dump i k = .read f k' ∧
      ∀ (b b' : Block) (r : c.R.σ), (∀ j, j < c.L.nodeSize → b.get (c.L.addr i + j) = b'.get (c.L.addr i + j)) → f b r = f b' r := by
  refine ⟨_, _, _, rfl, fun b b' r h => ?_⟩
  rw [C95_inside c.L c.C hc.layout b.get b'.get _ _ h]

/-- **C95**, what is shown after `Build`: for an item the vector that was added; for a root, in an index whose slots fit into one node, the items (and zeros for
unused slots), otherwise a hyperplane. -/
theorem C95_shows {c : Cfg} {numCPU : Nat} {pol : BuildPolicy} {adds : List (Nat × List c.N.V)} {trees workers : Int} {s s' : Idx c}
    (h : Session c numCPU pol adds trees workers s s') (hk : SplitsKept c numCPU pol (slotCount adds) trees workers) :
    (∀ i v, lastAdded adds i = some v → dumpNode c.L c.C s'.alloc.data (i * c.L.nodeSize) = .leaf v) ∧
    (slotCount adds ≤ c.L.K → slotCount adds ≠ 1 → ∀ r ∈ s'.roots, ∃ l : List Nat, l.Perm (addedIds adds) ∧
      dumpNode c.L c.C s'.alloc.data (r * c.L.nodeSize) = .inner (l ++ List.replicate (slotCount adds - l.length) 0)) ∧
    (c.L.K < slotCount adds → ∀ r ∈ s'.roots, ∃ norm vec, dumpNode c.L c.C s'.alloc.data (r * c.L.nodeSize) = .split norm vec) := by
  obtain ⟨N0, B, -⟩ := h.built
  obtain ⟨ts, t1, t2, -⟩ := C09_well_formed_partial h hk
  rw [B.nItems] at t2
  refine ⟨fun i v hv => ?_, fun hK h1 r hr => ?_, fun hK r hr => ?_⟩
  · have I := B.items i v hv
    unfold dumpNode
    dsimp only
    rw [if_pos I.nDesc, I.vec]
  · rw [← t1] at hr
    obtain ⟨t, ht, rfl⟩ := List.mem_map.1 hr
    have R := t2 t ht
    cases t with
    | item | hole => exact R.elim
    | split i l r =>
      have := R.2.2.2.1
      omega
    | bucket i ids =>
      obtain ⟨-, -, r3, r4, l, l1, l2⟩ := R
      refine ⟨l, l1, ?_⟩
      rw [← l2, ← r4]
      have r3' : Node.nDesc c.L s'.alloc.data (i * c.L.nodeSize) = slotCount adds := r3
      unfold dumpNode
      dsimp only [Tree.root]
      rw [if_neg (by rw [r3']; exact h1), if_pos (by rw [r3']; exact hK)]
  · rw [← t1] at hr
    obtain ⟨t, ht, rfl⟩ := List.mem_map.1 hr
    have R := t2 t ht
    have h2 := h.wf.layout.K_ge
    cases t with
    | item | hole => exact R.elim
    | bucket i ids =>
      have := R.2.1
      omega
    | split i l r =>
      have r3 : Node.nDesc c.L s'.alloc.data (i * c.L.nodeSize) = slotCount adds := R.2.2.2.2.1
      unfold dumpNode
      dsimp only [Tree.root]
      rw [if_neg (by rw [r3]; omega), if_neg (by rw [r3]; omega)]
      exact ⟨_, _, rfl⟩

/-- Twenty items of length 12 (more than fit into one node), and two items of length 2: an index as in `C95_shows` in either case. -/
example : (∃ s s', Session (alt32 12) 1 .single (longAdds 20) 1 1 s s' ∧ SplitsKept (alt32 12) 1 .single (slotCount (longAdds 20)) 1 1 ∧
      (alt32 12).L.K < slotCount (longAdds 20) ∧ s'.roots.length = 1) ∧
    ∃ s s', Session (alt32 2) 1 .single denseAdds 1 1 s s' ∧ SplitsKept (alt32 2) 1 .single (slotCount denseAdds) 1 1 ∧
      slotCount denseAdds ≤ (alt32 2).L.K ∧ slotCount denseAdds ≠ 1 ∧ s'.roots.length = 1 := by
  refine ⟨?_, ?_⟩
  · obtain ⟨s, s', -, h1, h2, -⟩ := C10_single (c := alt32 12) (alt32_wf (by decide)) (Conc.angular_total altRng_inRange (by decide)) (alt32_balanced 12) 1
      (longAdds 20) (legalAdds_of (by decide +kernel)) false 0 1 1 (by decide +kernel)
    exact ⟨s, s', h1, splitsKept_of_length h1.wf (by decide) h1.fits, by decide +kernel, h2 (by decide)⟩
  · obtain ⟨s, s', -, h1, h2, -⟩ := C10_single (c := alt32 2) (alt32_wf (by decide)) (Conc.angular_total altRng_inRange (by decide)) (alt32_balanced 2) 1
      denseAdds (legalAdds_of (by decide +kernel)) false 0 1 1 (by decide +kernel)
    exact ⟨s, s', h1, Or.inl (by decide +kernel), by decide +kernel, by decide +kernel, h2 (by decide)⟩

/-! ### Locks -/

/-- `x` is reached at some moment of a verbose `Build(trees, W workers)` on a new index with any legal `AddItem` calls. -/
structure RunningV (c : Cfg) (adds : List (Nat × List c.N.V)) (trees : Int) (W : Nat) (x : Conf c) : Prop where
  wf : c.WF
  legal : LegalAdds c adds
  fits : c.L.Fits (multiBound (slotCount adds) trees W)
  reach : ∃ r hint s s1, (Idx.new c r hint).addAll adds = .ok s ∧ s.buildStart = .ok s1 ∧
    Steps (startWorkersV s1 trees W) x

theorem Conf.Erases.two {c : Cfg} {x y : Conf c} (h : x.Erases y) {a b : Held × Prog c} (ht : Conf.Two x a b) :
    ∃ a' b', Conf.Two y a' b' ∧ (a.1 = a'.1 ∧ Annoy.Erases a.2 a'.2) ∧ b.1 = b'.1 ∧ Annoy.Erases b.2 b'.2 := by
  obtain ⟨pre, mid, post, e | e⟩ := ht
  · have h1 := h.ths
    rw [e] at h1
    obtain ⟨l1, b', post', e1, g1, g2, g3⟩ := forall₂_split h1
    obtain ⟨pre', a', mid', e2, g4, g5, g6⟩ := forall₂_split g1
    exact ⟨a', b', ⟨pre', mid', post', Or.inl (by rw [e1, e2])⟩, g5, g2⟩
  · have h1 := h.ths
    rw [e] at h1
    obtain ⟨l1, a', post', e1, g1, g2, g3⟩ := forall₂_split h1
    obtain ⟨pre', b', mid', e2, g4, g5, g6⟩ := forall₂_split g1
    exact ⟨a', b', ⟨pre', mid', post', Or.inr (by rw [e1, e2])⟩, g2, g5⟩

/-- **C95** as far as it is true: in a verbose build too, while one worker moves node memory no other worker writes node memory or moves it.
Missing: no other worker *reads* it, see `C95_refuted`. -/
theorem C95_locks_partial {c : Cfg} {adds : List (Nat × List c.N.V)} {trees : Int} {W : Nat} {x : Conf c} (h : RunningV c adds trees W x)
    (ht : Total c) : ∀ a b, Conf.Two x a b → a.1.moving = true → writes b.2 = none ∧ b.1.moving = false := by
  obtain ⟨r, hint, s, s1, h1, h2, h3⟩ := h.reach
  obtain ⟨y, g1, g2⟩ := h3.erase (startWorkersV_erases s1 trees W)
  have hr : Running c adds trees W y := ⟨h.wf, h.legal, h.fits, r, hint, s, s1, h1, h2, g1⟩
  intro a b hab hm
  obtain ⟨a', b', k1, ⟨k2, -⟩, k3, k4⟩ := g2.two hab
  obtain ⟨q1, q2⟩ := (C13_no_access_while_moving hr ht).1 a' b' k1 (k2 ▸ hm)
  refine ⟨?_, k3 ▸ q2⟩
  cases hb : b.2 with
  | write i g k =>
    rw [hb] at k4
    generalize b'.2 = q at k4 q1
    cases k4
    exact absurd trivial q1
  | _ => rfl

/-- Worker 0 builds its tree up to the dump of its node, worker 1 goes on until it moves the memory. -/
def dumpRace (c : Cfg) (r : c.R.σ) (adds : List (Nat × List c.N.V)) : Bool :=
  match (Idx.new c r 0).addAll adds with
  | .error _ => false
  | .ok s =>
    match s.buildStart with
    | .error _ => false
    | .ok s1 =>
      match (((startWorkersV s1 2 2).turn true 0 15).turn true 1 11).ths with
      | [(_, .read _ _), (h, _)] => h.moving
      | _ => false

theorem dumpRace_elim {c : Cfg} {r : c.R.σ} {adds : List (Nat × List c.N.V)} (hc : c.WF) (hl : LegalAdds c adds)
    (hf : c.L.Fits (multiBound (slotCount adds) 2 2)) (h : dumpRace c r adds = true) :
    ∃ x a b, RunningV c adds 2 2 x ∧ Conf.Two x a b ∧ a.1.moving = true ∧ Touches b.2 := by
  unfold dumpRace at h
  split at h
  · cases h
  · next s h1 =>
    split at h
    · cases h
    · next s1 h2 =>
      split at h
      · next h0 β f k h' p e =>
        exact ⟨_, (h', p), (h0, .read f k), ⟨hc, hl, hf, r, 0, s, s1, h1, h2, (Conf.turn_steps true 0 15 _).append (Conf.turn_steps true 1 11 _)⟩,
          ⟨[], [], [], Or.inr (by rw [e]; rfl)⟩, h, trivial⟩
      · cases h

/-- Two items with vectors of length 2. -/
def pairAdds : List (Nat × List ieee32.V) := [(0, [x32 0x3f800000, x32 0]), (1, [x32 0, x32 0x3f800000])]

/-- **C95 is false** with respect to the locks: in a verbose build by two workers of a plain index of two items, one worker can be about to read a node (to print it)
while the other one is inside `Reallocate`.  Both dumps of `makeTree` come after the shared lock was given back.  (With the allocator of the repository
the old memory stays readable, so the output is right; an allocator that frees or reuses the old memory would break.) -/
theorem C95_refuted : ¬ ∀ (c : Cfg) (adds : List (Nat × List c.N.V)) (trees : Int) (W : Nat) (x : Conf c), RunningV c adds trees W x → Total c →
    ∀ a b, Conf.Two x a b → a.1.moving = true → ¬ Touches b.2 := by
  intro h
  obtain ⟨x, a, b, h1, h2, h3, h4⟩ := dumpRace_elim (c := alt32 2) (r := false) (adds := pairAdds) (alt32_wf (by decide))
    (legalAdds_of (by decide +kernel)) (by decide +kernel) (by decide +kernel)
  exact h (alt32 2) pairAdds 2 2 x h1 (angular_total altRng_inRange (by decide)) a b h2 h3 h4

/-- The hypotheses of `C95_locks_partial` are met by a configuration with a moving worker. -/
example : ∃ x a b, RunningV (alt32 2) pairAdds 2 2 x ∧ Conf.Two x a b ∧ a.1.moving = true ∧ writes b.2 = none := by
  obtain ⟨x, a, b, h1, h2, h3, -⟩ := dumpRace_elim (c := alt32 2) (r := false) (adds := pairAdds) (alt32_wf (by decide))
    (legalAdds_of (by decide +kernel)) (by decide +kernel) (by decide +kernel)
  exact ⟨x, a, b, h1, h2, h3, (C95_locks_partial h1 (angular_total altRng_inRange (by decide)) a b h2 h3).1⟩

/-- The hypothesis of `C95_inside` holds for the layouts of the repository, here for vectors of length 2. -/
example : (alt32 2).L.Ok (alt32 2).C.sz := (alt32_wf (f := 2) (by decide)).layout

end Annoy
