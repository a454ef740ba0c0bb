import Verif.Model.Conc
/-!
# Running a schedule

`Step` is a relation.  To exhibit an execution of several workers it is enough to give the order in which they act: `Prog.act` does the
next action of a worker, drawing from the generator where the index has it.
-/
namespace Annoy
variable {c : Cfg}

/-- The next action of a worker, if it is not blocked; `o` are the locks of the others. -/
def Prog.act (o : List Held) (s : Idx c) (h : Held) : Prog c → Option (Idx c × Held × Prog c)
  | .done => none
  | .fail _ => none
  | .lockN k => if (o.all fun x => !x.nn) && !h.nn then some (s, { h with nn := true }, k) else none
  | .unlockN k => if h.nn then some (s, { h with nn := false }, k) else none
  | .rlock k =>
    if (o.all fun x => decide (x.wr = .idle)) && decide (h.wr = .idle) && !h.rd then some (s, { h with rd := true }, k) else none
  | .runlock k => if h.rd then some (s, { h with rd := false }, k) else none
  | .wlock k =>
    if h.wr = .pending then
      if (o.all fun x => !x.rd) && !h.rd then some (s, { h with wr := .held }, k) else none
    else if (o.all fun x => decide (x.wr = .idle)) && decide (h.wr = .idle) then some (s, { h with wr := .pending }, .wlock k) else none
  | .wunlock k => if h.wr = .held then some (s, { h with wr := .idle }, k) else none
  | .lockR k => if (o.all fun x => !x.rt) && !h.rt then some (s, { h with rt := true }, k) else none
  | .unlockR k => if h.rt then some (s, { h with rt := false }, k) else none
  | .readN k => some (s, h, k s.nNodes)
  | .setN v k => some ({ s with nNodes := v }, h, k)
  | .readSize k => some (s, h, k s.nodesSize)
  | .grow z k =>
    if h.moving then
      some ({ s with nodes := .build, alloc := s.alloc.reallocate (c.L.wrap (z * c.L.nodeSize)), nodesSize := z },
        { h with moving := false }, k)
    else some (s, { h with moving := true }, .grow z k)
  | .read f k =>
    match f s.bmem s.rng with
    | .ok (x, r) => some ({ s with rng := r }, h, k x)
    | .error e => some (s, h, .fail e)
  | .write i g k =>
    match getNode c.L s.bmem i with
    | .ok a => some (s.write fun b => g b a, h, k)
    | .error e => some (s, h, .fail e)
  | .rand ids k =>
    match Idx.assignSides (fun _ r => .ok (c.R.nextSide r)) ids s.rng with
    | .error _ => none
    | .ok (l, rt, r) =>
      if c.le99 l.length rt.length then some ({ s with rng := r }, h, k l rt) else some ({ s with rng := r }, h, .rand ids k)
  | .readRoots k => some (s, h, k s.roots)
  | .setRoots rs k => some ({ s with roots := rs }, h, k)

theorem Prog.act_step {o : List Held} {s s' : Idx c} {h h' : Held} {p p' : Prog c} (e : p.act o s h = some (s', h', p')) :
    TStep o s h p s' h' p' := by
  cases p with
  | done => cases e
  | fail _ => cases e
  | lockN k =>
    simp only [act] at e
    split at e
    · next hc => cases e; simp at hc; exact .lockN hc.1 hc.2
    · cases e
  | unlockN k =>
    simp only [act] at e
    split at e
    · next hc => cases e; exact .unlockN hc
    · cases e
  | rlock k =>
    simp only [act] at e
    split at e
    · next hc => cases e; simp at hc; exact .rlock hc.1.1 hc.1.2 hc.2
    · cases e
  | runlock k =>
    simp only [act] at e
    split at e
    · next hc => cases e; exact .runlock hc
    · cases e
  | wlock k =>
    simp only [act] at e
    split at e
    · next hp =>
      split at e
      · next hc => cases e; simp at hc; exact .wlock hc.1 hc.2 hp
      · cases e
    · split at e
      · next hc => cases e; simp at hc; exact .announce hc.1 hc.2
      · cases e
  | wunlock k =>
    simp only [act] at e
    split at e
    · next hc => cases e; exact .wunlock hc
    · cases e
  | lockR k =>
    simp only [act] at e
    split at e
    · next hc => cases e; simp at hc; exact .lockR hc.1 hc.2
    · cases e
  | unlockR k =>
    simp only [act] at e
    split at e
    · next hc => cases e; exact .unlockR hc
    · cases e
  | readN k => cases e; exact .readN
  | setN v k => cases e; exact .setN
  | readSize k => cases e; exact .readSize
  | grow z k =>
    simp only [act] at e
    split at e
    · next hc => cases e; exact .growEnd hc
    · next hc => cases e; exact .growBegin (by simpa using hc)
  | read f k =>
    simp only [act] at e
    split at e
    · next hf => cases e; exact .read s.rng _ hf
    · next hf => cases e; exact .readErr s.rng hf
  | write i g k =>
    simp only [act] at e
    split at e
    · next hf => cases e; exact .write hf
    · next hf => cases e; exact .writeErr hf
  | rand ids k =>
    simp only [act] at e
    split at e
    · cases e
    · next hf =>
      split at e
      · next hc => cases e; exact .rand s.rng _ hf hc
      · next hc => cases e; exact .spin s.rng _ hf (by simpa using hc)
  | readRoots k => cases e; exact .readRoots
  | setRoots rs k => cases e; exact .setRoots

/-- Worker `i` does its next action. -/
def Conf.act (x : Conf c) (i : Nat) : Option (Conf c) :=
  match x.ths[i]? with
  | none => none
  | some (h, p) =>
    match p.act ((x.ths.take i ++ x.ths.drop (i + 1)).map Prod.fst) x.idx h with
    | none => none
    | some (s', h', p') => some ⟨s', x.ths.take i ++ (h', p') :: x.ths.drop (i + 1)⟩

theorem Conf.act_step {x y : Conf c} {i : Nat} (e : x.act i = some y) : Step x y := by
  unfold act at e
  split at e
  · cases e
  · next h p hx =>
    split at e
    · cases e
    · next s' h' p' hp =>
      cases e
      obtain ⟨hi, e'⟩ := List.getElem?_eq_some_iff.1 hx
      have : x = ⟨x.idx, x.ths.take i ++ (h, p) :: x.ths.drop (i + 1)⟩ := by
        rw [← e', List.getElem_cons_drop, List.take_append_drop]
      have hs : Step ⟨x.idx, x.ths.take i ++ (h, p) :: x.ths.drop (i + 1)⟩ ⟨s', x.ths.take i ++ (h', p') :: x.ths.drop (i + 1)⟩ :=
        .mk _ _ (Prog.act_step hp)
      rwa [← this] at hs

/-- A worker that may act on: neither finished nor about to lock the root list. -/
def Prog.building : Prog c → Bool
  | .done => false
  | .fail _ => false
  | .lockR _ => false
  | _ => true

/-- Worker `i` may act on. -/
def Conf.building (x : Conf c) (i : Nat) : Bool :=
  match x.ths[i]? with
  | none => false
  | some t => t.2.building

/-- Worker `i` acts alone until it has built its trees (`stop`: until it cannot act any more). -/
def Conf.turn (stop : Bool) (i : Nat) : Nat → Conf c → Conf c
  | 0, x => x
  | fuel + 1, x =>
    if stop || x.building i then
      match x.act i with
      | none => x
      | some y => y.turn stop i fuel
    else x

theorem Steps.head {x y z : Conf c} (h : Step x y) (hs : Steps y z) : Steps x z := by
  induction hs with
  | refl => exact .tail (.refl _) h
  | tail _ h2 ih => exact .tail ih h2

theorem Steps.append {x y z : Conf c} (h : Steps x y) (hs : Steps y z) : Steps x z := by
  induction hs with
  | refl => exact h
  | tail _ h2 ih => exact .tail ih h2

theorem Conf.turn_steps (stop : Bool) (i : Nat) : ∀ (fuel : Nat) (x : Conf c), Steps x (x.turn stop i fuel)
  | 0, x => .refl x
  | fuel + 1, x => by
    unfold turn
    split
    · cases h : x.act i with
      | none => exact .refl x
      | some y => exact (Steps.head (act_step h) (turn_steps stop i fuel y))
    · exact .refl x

/-- All workers are done, decided. -/
def Conf.finished (x : Conf c) : Bool :=
  x.ths.all fun t => match t.2 with | .done => true | _ => false

theorem Conf.finished_elim {x : Conf c} (h : x.finished = true) : x.Finished := by
  intro t ht
  have := List.all_eq_true.1 h t ht
  split at this
  · assumption
  · cases this

end Annoy
