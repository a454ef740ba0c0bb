import Verif.Model.Conc
import Mathlib.Logic.Hydra
import Mathlib.Tactic.Abel
/-!
Termination of the workers: an execution can only be infinite by drawing unbalanced random sides for ever.
-/
namespace Annoy
namespace Conc
variable {c : Cfg}

/-- `p'` is what is left of `p` after one action. -/
inductive Rest : Prog c → Prog c → Prop where
  | lockN {k} : Rest k (.lockN k)
  | unlockN {k} : Rest k (.unlockN k)
  | rlock {k} : Rest k (.rlock k)
  | runlock {k} : Rest k (.runlock k)
  | wlock {k} : Rest k (.wlock k)
  | wunlock {k} : Rest k (.wunlock k)
  | lockR {k} : Rest k (.lockR k)
  | unlockR {k} : Rest k (.unlockR k)
  | readN {k v} : Rest (k v) (.readN k)
  | setN {v k} : Rest k (.setN v k)
  | readSize {k v} : Rest (k v) (.readSize k)
  | grow {z k} : Rest k (.grow z k)
  | read {β} {f : Block → c.R.σ → Except Err (β × c.R.σ)} {k x} : Rest (k x) (.read f k)
  | readErr {β} {f : Block → c.R.σ → Except Err (β × c.R.σ)} {k e} : Rest (.fail e) (.read f k)
  | write {i g k} : Rest k (.write i g k)
  | writeErr {i g k e} : Rest (.fail e) (.write i g k)
  | rand {ids k l rt} : Rest (k l rt) (.rand ids k)
  | readRoots {k v} : Rest (k v) (.readRoots k)
  | setRoots {rs k} : Rest k (.setRoots rs k)

theorem acc_fail (e : Err) : Acc (Rest (c := c)) (.fail e) := ⟨_, fun _ h => by cases h⟩

theorem rest_wf : WellFounded (Rest (c := c)) := by
  constructor
  intro p
  induction p with
  | done => exact ⟨_, fun _ h => by cases h⟩
  | fail e => exact acc_fail e
  | lockN k ih => exact ⟨_, fun _ h => by cases h; exact ih⟩
  | unlockN k ih => exact ⟨_, fun _ h => by cases h; exact ih⟩
  | rlock k ih => exact ⟨_, fun _ h => by cases h; exact ih⟩
  | runlock k ih => exact ⟨_, fun _ h => by cases h; exact ih⟩
  | wlock k ih => exact ⟨_, fun _ h => by cases h; exact ih⟩
  | wunlock k ih => exact ⟨_, fun _ h => by cases h; exact ih⟩
  | lockR k ih => exact ⟨_, fun _ h => by cases h; exact ih⟩
  | unlockR k ih => exact ⟨_, fun _ h => by cases h; exact ih⟩
  | readN k ih => exact ⟨_, fun _ h => by cases h; exact ih _⟩
  | setN v k ih => exact ⟨_, fun _ h => by cases h; exact ih⟩
  | readSize k ih => exact ⟨_, fun _ h => by cases h; exact ih _⟩
  | grow z k ih => exact ⟨_, fun _ h => by cases h; exact ih⟩
  | read f k ih => exact ⟨_, fun _ h => by cases h; exacts [ih _, acc_fail _]⟩
  | write i g k ih => exact ⟨_, fun _ h => by cases h; exacts [ih, acc_fail _]⟩
  | rand ids k ih => exact ⟨_, fun _ h => by cases h; exact ih _ _⟩
  | readRoots k ih => exact ⟨_, fun _ h => by cases h; exact ih _⟩
  | setRoots rs k ih => exact ⟨_, fun _ h => by cases h; exact ih⟩

/-- Announcing a write lock and beginning to move memory are actions that leave the program as it is. -/
def phase (h : Held) : Nat := (if h.wr = .idle then 1 else 0) + (if h.moving then 0 else 1)

def key (t : Held × Prog c) : Prog c × Nat := (t.2, phase t.1)

def Less : Prog c × Nat → Prog c × Nat → Prop := Prod.Lex Rest (· < ·)

theorem less_wf : WellFounded (Less (c := c)) := WellFounded.prod_lex rest_wf Nat.lt_wfRel.wf

/-- An action brings a worker closer to its end, or is a failed random draw. -/
theorem tstep_less {o : List Held} {s s' : Idx c} {h h' : Held} {p p' : Prog c}
    (st : TStep o s h p s' h' p') : Less (key (h', p')) (key (h, p)) ∨
      (h' = h ∧ p' = p ∧ ∃ ids k, p = .rand ids k) := by
  cases st
  case spin => exact Or.inr ⟨rfl, rfl, _, _, rfl⟩
  case announce h1 h2 =>
    left
    apply Prod.Lex.right
    simp [phase, h2]
  case growBegin h1 =>
    left
    apply Prod.Lex.right
    simp [phase, h1]
  all_goals
    left
    exact Prod.Lex.left _ _ (by constructor)

/-- What the workers can become in one step that changes them. -/
def Shrinks (a b : List (Held × Prog c)) : Prop := (∃ s s', Step ⟨s, b⟩ ⟨s', a⟩) ∧ a ≠ b

theorem shrinks_wf : WellFounded (Shrinks (c := c)) := by
  have hwf : WellFounded (Relation.CutExpand (Less (c := c))) := less_wf.cutExpand
  refine Subrelation.wf (r := InvImage (Relation.CutExpand (Less (c := c)))
    (fun x : List (Held × Prog c) => ((x.map key : List (Prog c × Nat)) : Multiset (Prog c × Nat)))) ?_
    (InvImage.wf _ hwf)
  rintro y x ⟨⟨s0, s0', st⟩, hne⟩
  generalize hx : (⟨s0, x⟩ : Conf c) = cx at st
  generalize hy : (⟨s0', y⟩ : Conf c) = cy at st
  cases st with
  | mk pre post st =>
    rename_i s s' h h' p p'
    injection hx with _ hx
    injection hy with _ hy
    subst hx hy
    rcases tstep_less st with hl | ⟨rfl, rfl, _⟩
    · refine ⟨{key (h', p')}, key (h, p), ?_, ?_⟩
      · intro a ha
        rw [Multiset.mem_singleton] at ha
        rw [ha]; exact hl
      · show ((List.map key (pre ++ (h', p') :: post) : List _) : Multiset _) + {key (h, p)} =
          ((List.map key (pre ++ (h, p) :: post) : List _) : Multiset _) + {key (h', p')}
        simp only [List.map_append, List.map_cons, ← Multiset.coe_add, ← Multiset.cons_coe,
          ← Multiset.singleton_add]
        abel
    · exact absurd rfl hne

/-- A step in which the workers change. -/
def Moves (y x : Conf c) : Prop := Step x y ∧ y.ths ≠ x.ths

theorem moves_wf : WellFounded (Moves (c := c)) :=
  Subrelation.wf (r := InvImage Shrinks Conf.ths) (fun {y x} h => ⟨⟨x.idx, y.idx, h.1⟩, h.2⟩)
    (InvImage.wf _ shrinks_wf)

/-- In an infinite execution the workers stop changing. -/
theorem settles (xs : Nat → Conf c) (h : ∀ k, Step (xs k) (xs (k + 1))) :
    ∃ N, ∀ k, N ≤ k → (xs (k + 1)).ths = (xs k).ths := by
  by_contra hcon
  have hcon' : ∀ N, ∃ k, N ≤ k ∧ (xs (k + 1)).ths ≠ (xs k).ths := by
    intro N
    by_contra h'
    exact hcon ⟨N, fun k hk => by by_contra h''; exact h' ⟨k, hk, h''⟩⟩
  have key : ∀ a : List (Held × Prog c), ∀ N, (xs N).ths = a → False := by
    intro a
    induction a using shrinks_wf.induction with
    | _ a ih =>
      intro N hN
      obtain ⟨k, hk⟩ := hcon' N
      have hex : ∃ k, N ≤ k ∧ (xs (k + 1)).ths ≠ (xs k).ths := ⟨k, hk⟩
      classical
      obtain ⟨h1, h2⟩ := Nat.find_spec hex
      have hsame : ∀ j, N ≤ j → j ≤ Nat.find hex → (xs j).ths = a := by
        intro j hj
        induction j, hj using Nat.le_induction with
        | base => intro _; exact hN
        | succ j hj ih' =>
          intro hle
          have := Nat.find_min hex (m := j) (by omega)
          have e : (xs (j + 1)).ths = (xs j).ths := by
            by_contra hne; exact this ⟨hj, hne⟩
          rw [e]; exact ih' (by omega)
      have e := hsame _ h1 le_rfl
      refine ih _ ?_ (Nat.find hex + 1) rfl
      refine ⟨⟨(xs (Nat.find hex)).idx, (xs (Nat.find hex + 1)).idx, ?_⟩, ?_⟩
      · rw [← e]; exact h (Nat.find hex)
      · rw [← e]; exact h2
  exact key _ 0 rfl

/-- A step that leaves all workers as they are is a failed random draw. -/
theorem stays {x y : Conf c} (st : Step x y) (he : y.ths = x.ths) :
    ∃ t ∈ x.ths, ∃ ids k, t.2 = Prog.rand ids k := by
  cases st with
  | mk pre post st =>
    rename_i s s' h h' p p'
    rcases tstep_less st with hl | ⟨rfl, rfl, ids, k, e⟩
    · dsimp only at he
      have := (List.append_cancel_left he)
      injection this with e1 _
      rw [e1] at hl
      exact absurd hl (less_wf.irrefl.irrefl _)
    · exact ⟨(h', p'), by simp, ids, k, e⟩

end Conc
end Annoy
