import Verif.Model.Conc
/-!
# Building with workers whose draws do not race

In `Verif.Model.Conc` a draw of the shared generator may start from any state, because workers draw without a lock.  If draws do not overlap, a draw
starts from the state the previous draw left.  That is so with one worker, or with a generator that locks itself.
-/
namespace Annoy
variable {c : Cfg}

/-- Actions that use `idx.random`. -/
def Prog.draws : Prog c → Bool
  | .read _ _ => true
  | .rand _ _ => true
  | _ => false

/-- The action from `p` to `p'` uses the generator of the index, and leaves its state behind (random/kiss32random.go:37-60: `Next` changes the
fields of the generator). -/
inductive Atomic : Idx c → Prog c → Idx c → Prog c → Prop where
  | read {s : Idx c} {β} {f : Block → c.R.σ → Except Err (β × c.R.σ)} {k x r} :
      f s.bmem s.rng = .ok (x, r) → Atomic s (.read f k) { s with rng := r } (k x)
  | readErr {s : Idx c} {β} {f : Block → c.R.σ → Except Err (β × c.R.σ)} {k e} :
      f s.bmem s.rng = .error e → Atomic s (.read f k) s (.fail e)
  | rand {s : Idx c} {ids k l rt r} : Idx.assignSides (fun _ r => .ok (c.R.nextSide r)) ids s.rng = .ok (l, rt, r) →
      c.le99 l.length rt.length = true → Atomic s (.rand ids k) { s with rng := r } (k l rt)
  | spin {s : Idx c} {ids k l rt r} : Idx.assignSides (fun _ r => .ok (c.R.nextSide r)) ids s.rng = .ok (l, rt, r) →
      c.le99 l.length rt.length = false → Atomic s (.rand ids k) { s with rng := r } (.rand ids k)
  | other {s s' : Idx c} {p p' : Prog c} : p.draws = false → Atomic s p s' p'

/-- One worker does one action. -/
inductive AStep : Conf c → Conf c → Prop where
  | mk {s s' h h' p p'} (pre post : List (Held × Prog c)) :
      TStep ((pre ++ post).map Prod.fst) s h p s' h' p' → Atomic s p s' p' →
      AStep ⟨s, pre ++ (h, p) :: post⟩ ⟨s', pre ++ (h', p') :: post⟩

/-- Any number of actions. -/
inductive ASteps : Conf c → Conf c → Prop where
  | refl (x) : ASteps x x
  | tail {x y z} : ASteps x y → AStep y z → ASteps x z

/-- `Build` (annoyindex.go:181-234) with the multi worker policy, when draws do not race: `s'` is a possible result. -/
def Idx.BuildsAtomic (s : Idx c) (trees : Int) (workers : Nat) (s' : Idx c) : Prop :=
  ∃ s1 x, s.buildStart = .ok s1 ∧ ASteps (startWorkers s1 trees workers) x ∧ x.Finished ∧ x.idx.buildFinish = .ok s'

end Annoy
