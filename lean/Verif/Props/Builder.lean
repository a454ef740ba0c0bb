import Verif.Model.Builder
import Mathlib.Data.List.Induction
/-!
# Builder configuration (C55)
-/
namespace Annoy
namespace Builder

/-! ### Specification: the last call of a kind -/

/-- The argument of the last call that `f` selects. -/
def lastOf {α : Type} (f : Call → Option α) (cs : List Call) : Option α := cs.reverse.findSome? f

def asRandom : Call → Option Nat
  | .random r => some r
  | _ => none

/-- Positive hints only. -/
def asHint : Call → Option Int
  | .indexNumHint n => if 0 < n then some n else none
  | _ => none

def asDistance : Call → Option Int
  | .angularDistance f => some f
  | _ => none

def asPolicy : Call → Option Pol
  | .multiWorker => some .multi
  | .singleWorker => some .single
  | _ => none

def asMemory : Call → Option Backend
  | .mmapIndex => some .mmap
  | .gcIndex => some .gc
  | _ => none

def asSorter : Call → Option Nat
  | .useSorter s => some s
  | _ => none

theorem lastOf_append {α : Type} (f : Call → Option α) (cs : List Call) (c : Call) :
    lastOf f (cs ++ [c]) = (f c).or (lastOf f cs) := by
  simp only [lastOf, List.reverse_append, List.reverse_cons, List.reverse_nil, List.nil_append,
    List.cons_append, List.findSome?_cons]
  cases f c <;> rfl

/-- **C55, the last setter wins.**  Every field of the configuration after any sequence of builder calls is the
argument of the last call that sets it, and the initial value if there is none; a hint that is not positive
sets nothing. -/
theorem C55_last_wins (w : Nat) (cs : List Call) :
    run w cs =
      { allocHint := ((lastOf asHint cs).map fun n => n.toNat % 2 ^ w).getD 0
        random := lastOf asRandom cs
        distance := (lastOf asDistance cs).map fun f => (f % 2 ^ w).toNat
        buildPolicy := lastOf asPolicy cs
        indexMemory := lastOf asMemory cs
        sorter := lastOf asSorter cs
        logVerbose := decide (Call.verbose ∈ cs) } := by
  induction cs using List.reverseRecOn with
  | nil => rfl
  | append_singleton cs c ih =>
    have hrun : run w (cs ++ [c]) = apply w (run w cs) c := by simp [run]
    rw [hrun, ih]
    simp only [lastOf_append]
    cases c with
    | indexNumHint n =>
      by_cases hn : n ≤ 0
      · have : ¬ 0 < n := by omega
        simp [apply, asHint, asRandom, asDistance, asPolicy, asMemory, asSorter, hn, this]
      · have : 0 < n := by omega
        simp [apply, asHint, asRandom, asDistance, asPolicy, asMemory, asSorter, hn, this]
    | _ => simp [apply, asHint, asRandom, asDistance, asPolicy, asMemory, asSorter]

/-- Which field a call sets. -/
inductive Field where
  | random | hint | distance | policy | memory | sorter | verbose
deriving DecidableEq

def field : Call → Field
  | .random _ => .random
  | .indexNumHint _ => .hint
  | .angularDistance _ => .distance
  | .multiWorker | .singleWorker => .policy
  | .mmapIndex | .gcIndex => .memory
  | .useSorter _ => .sorter
  | .verbose => .verbose

theorem lastOf_filter {α : Type} (f : Call → Option α) (k : Field) (hf : ∀ c, (f c).isSome → field c = k)
    (cs : List Call) : lastOf f (cs.filter (field · = k)) = lastOf f cs := by
  induction cs using List.reverseRecOn with
  | nil => rfl
  | append_singleton cs c ih =>
    rw [List.filter_append, lastOf_append]
    by_cases hk : field c = k
    · rw [List.filter_cons_of_pos (by simpa using hk), List.filter_nil, lastOf_append, ih]
    · rw [List.filter_cons_of_neg (by simpa using hk), List.filter_nil, List.append_nil, ih]
      cases hc : f c with
      | none => rfl
      | some x => exact absurd (hf c (by rw [hc]; rfl)) hk

/-- **C55, setters of different parts can be called in any order.**  Two call sequences that have the same calls
in the same order for each part configure the same index. -/
theorem C55_order (w : Nat) (cs cs' : List Call)
    (h : ∀ k, cs.filter (field · = k) = cs'.filter (field · = k)) : run w cs = run w cs' := by
  have key : ∀ {α : Type} (f : Call → Option α) (k : Field), (∀ c, (f c).isSome → field c = k) →
      lastOf f cs = lastOf f cs' := fun f k hf => by
    rw [← lastOf_filter f k hf cs, h k, lastOf_filter f k hf cs']
  have hv : decide (Call.verbose ∈ cs) = decide (Call.verbose ∈ cs') := by
    have h1 := fun l : List Call => List.mem_filter (p := (field · = Field.verbose)) (x := Call.verbose) (as := l)
    have : Call.verbose ∈ cs ↔ Call.verbose ∈ cs' := by
      have a := h1 cs
      have b := h1 cs'
      rw [h .verbose] at a
      simp only [field, decide_true, and_true] at a b
      rw [← a, b]
    simp [this]
  rw [C55_last_wins, C55_last_wins,
    key asHint .hint (by intro c; cases c <;> simp [asHint, field]),
    key asRandom .random (by intro c; cases c <;> simp [asRandom, field]),
    key asDistance .distance (by intro c; cases c <;> simp [asDistance, field]),
    key asPolicy .policy (by intro c; cases c <;> simp [asPolicy, field]),
    key asMemory .memory (by intro c; cases c <;> simp [asMemory, field]),
    key asSorter .sorter (by intro c; cases c <;> simp [asSorter, field]), hv]

/-- **C55, `IndexNumHint` ignores non-positive values.**  Leaving such calls out changes nothing, wherever they
are. -/
theorem C55_hint_ignored (w : Nat) (cs : List Call) :
    run w (cs.filter fun c => match c with
      | .indexNumHint n => decide (0 < n)
      | _ => true) = run w cs := by
  induction cs using List.reverseRecOn with
  | nil => rfl
  | append_singleton cs c ih =>
    have hrun : ∀ (l : List Call) c, run w (l ++ [c]) = apply w (run w l) c := fun l c => by simp [run]
    rw [List.filter_append, hrun cs c, ← ih]
    cases c with
    | indexNumHint n =>
      by_cases hn : 0 < n
      · simp [hn, hrun]
      · have : n ≤ 0 := by omega
        simp [hn, apply, this]
    | _ => simp [hrun]

/-- **C55, usable defaults, as far as they hold.**  With 32-bit indexes, a call of `AngularDistance` is enough: `Build`
of the builder returns an index with that vector length whose generator is the user's last one or `Kiss32Random(0)`,
with the last chosen policy (default: single worker) and back end (default: mmap), and using the generator does not
panic.  Missing for the full claim: `C55_refuted`. -/
theorem C55_usable_partial (cs : List Call) (f : Int) (hd : lastOf asDistance cs = some f) :
    ∃ m r, new (build 32 (run 32 cs)) = .ok m ∧ m.cloneRandom = .ok r ∧
      r = ((lastOf asRandom cs).map (· + 1)).getD 0 ∧
      m.vectorLength = (f % 2 ^ 32).toNat ∧
      m.buildPolicy = (lastOf asPolicy cs).getD .single ∧
      m.indexMemory = (lastOf asMemory cs).getD .mmap ∧
      m.sorter = lastOf asSorter cs := by
  rw [C55_last_wins]
  simp only [build, new, hd, Option.map_some]
  cases hr : lastOf asRandom cs with
  | none => exact ⟨_, _, rfl, by simp [Made.cloneRandom]; rfl, by simp, rfl, rfl, rfl, rfl⟩
  | some r => exact ⟨_, _, rfl, by simp [Made.cloneRandom]; rfl, by simp, rfl, rfl, rfl, rfl⟩

/-- The same with 64-bit indexes once the user has given a generator. -/
theorem C55_usable64_partial (cs : List Call) (f : Int) (r : Nat) (hd : lastOf asDistance cs = some f)
    (hr : lastOf asRandom cs = some r) :
    ∃ m, new (build 64 (run 64 cs)) = .ok m ∧ m.cloneRandom = .ok (r + 1) ∧
      m.vectorLength = (f % 2 ^ 64).toNat := by
  rw [C55_last_wins]
  simp only [build, new, hd, hr, Option.map_some]
  exact ⟨_, rfl, rfl, rfl⟩

/-- **C55 is false**: without a generator every builder of a 64-bit index returns an index whose generator is nil, so
that `Build` and `Close` of that index panic; and without `AngularDistance` the builder itself panics. -/
theorem C55_refuted :
    (∀ cs, lastOf asRandom cs = none → ∀ m, new (build 64 (run 64 cs)) = .ok m →
      m.cloneRandom = .error (.panic "nil pointer dereference")) ∧
    (∀ w cs, lastOf asDistance cs = none →
      new (build w (run w cs)) = .error (.panic "nil pointer dereference")) := by
  refine ⟨fun cs hr m hm => ?_, fun w cs hd => ?_⟩
  · rw [C55_last_wins] at hm
    simp only [build, new, hr] at hm
    cases hd : lastOf asDistance cs with
    | none => rw [hd] at hm; cases hm
    | some f =>
      rw [hd] at hm
      cases hm
      rfl
  · rw [C55_last_wins]
    simp [build, new, hd]

-- Hypotheses are met.
example : lastOf asDistance [.multiWorker, .angularDistance 40, .indexNumHint (-3), .angularDistance 16] = some 16 :=
  rfl
example : run 32 [.multiWorker, .indexNumHint 7, .angularDistance 40, .indexNumHint (-3)]
    = run 32 [.angularDistance 40, .indexNumHint 7, .indexNumHint (-3), .multiWorker] :=
  C55_order 32 _ _ (by intro k; cases k <;> decide)
example : ∃ m, new (build 64 (run 64 [.angularDistance 16, .multiWorker])) = .ok m := ⟨_, rfl⟩

end Builder
end Annoy
