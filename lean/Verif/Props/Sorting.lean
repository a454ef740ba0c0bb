import Verif.Proof.Order
import Verif.Model.Utils
import Mathlib.Data.Multiset.Basic
import Mathlib.Data.List.Count
/-!
# C38 – C42, C59: sorting, priority queue, intersection
-/
namespace Annoy
open Srt

theorem Le_iff {N : Num} (x y : N.V × Nat) : Le (pairLess N) x y ↔ NotAfter (PairLt N) x y :=
  pairLess_false N x y

theorem contract_of_sortsOn {N : Num} {f : List (N.V × Nat) → List (N.V × Nat)}
    (h : SortsOn (PairLt N) (PairOk N) f) : SortContract (pairLess N) (PairOk N) f :=
  ⟨h.perm, fun s hs => (h.sorted s hs).imp fun hxy => (Le_iff _ _).2 hxy⟩

theorem list_ext_get {α : Type} [Inhabited α] {a b : List α} (hl : a.length = b.length)
    (h : ∀ k, k < a.length → get a k = get b k) : a = b := by
  apply List.ext_getElem hl
  intro i h1 h2
  have := h i h1
  rwa [get_lt a i h1, get_lt b i h2] at this

/-- From index-wise facts to the list-wise specification. -/
theorem partiallySorted_of_get {α : Type} [Inhabited α] {lt : α → α → Prop} {s r : List α} {b m e : Nat}
    (h1 : b ≤ m) (h2 : m ≤ e) (h3 : e ≤ s.length) (hp : r.Perm s)
    (hout : ∀ k, (k < b ∨ e ≤ k) → get r k = get s k)
    (hord : ∀ i j, b ≤ i → i < m → i < j → j < e → NotAfter lt (get r i) (get r j)) :
    PartiallySorted lt s r b m e := by
  have hl := hp.length_eq
  have hb : r.take b = s.take b := by
    apply list_ext_get (by simp [hl])
    intro k hk
    simp at hk
    rw [get_take _ _ _ (by omega), get_take _ _ _ (by omega)]
    exact hout k (by omega)
  have he : r.drop e = s.drop e := by
    apply list_ext_get (by simp [hl])
    intro k hk
    rw [get_drop, get_drop]
    exact hout _ (by omega)
  refine ⟨hb, he, ?_, ?_, ?_⟩
  · have e1 : ∀ l : List α, l = l.take b ++ ((l.drop b).take (e - b) ++ l.drop e) := by
      intro l
      have : l.drop e = (l.drop b).drop (e - b) := by rw [List.drop_drop]; congr 1; omega
      rw [this, List.take_append_drop, List.take_append_drop]
    have h4 := hp
    rw [e1 r, e1 s, hb, he] at h4
    exact (List.perm_append_right_iff _).1 ((List.perm_append_left_iff _).1 h4)
  · rw [List.pairwise_iff_getElem]
    intro i j hi hj hij
    simp at hi hj
    have := hord (b + i) (b + j) (by omega) (by omega) (by omega) (by omega)
    rw [get_lt _ _ (by omega), get_lt _ _ (by omega)] at this
    simpa using this
  · intro x hx y hy
    obtain ⟨i, hi, rfl⟩ := mem_get hx
    obtain ⟨j, hj, rfl⟩ := mem_get hy
    simp at hi hj
    rw [get_take _ _ _ (by omega), get_take _ _ _ (by omega), get_drop, get_drop]
    exact hord _ _ (by omega) (by omega) (by omega) (by omega)

/-- **C59.** `Pair.Less` is a strict total order on pairs without NaN: irreflexive, transitive, and two
pairs that are not ordered have equal distance and equal index.  For every bit pattern of `float32`. -/
theorem C59_pair_order32 :
    (∀ x : ieee32.V × Nat, pairLess ieee32 x x = false) ∧
    (∀ x y z : ieee32.V × Nat, pairLess ieee32 x y = true → pairLess ieee32 y z = true →
      pairLess ieee32 x z = true) ∧
    (∀ x y : ieee32.V × Nat, Ieee.f32.isNaN x.1.toNat = false → Ieee.f32.isNaN y.1.toNat = false →
      pairLess ieee32 x y = true ∨ pairLess ieee32 y x = true ∨ (ieee32.eq x.1 y.1 = true ∧ x.2 = y.2)) := by
  have h := ieee32_lawful
  refine ⟨?_, ?_, ?_⟩
  · intro x; rw [pairLess_false]; exact pair_irrefl h x
  · intro x y z h1 h2
    rw [pairLess_iff] at *; exact pair_trans h _ _ _ h1 h2
  · intro x y hx hy
    rw [pairLess_iff, pairLess_iff]
    refine pair_total h x y ?_ ?_
    · show Ieee.f32.eq _ _ = true; simp [Ieee.Fmt.eq, hx]
    · show Ieee.f32.eq _ _ = true; simp [Ieee.Fmt.eq, hy]

/-- **C59** for `float64`. -/
theorem C59_pair_order64 :
    (∀ x : ieee64.V × Nat, pairLess ieee64 x x = false) ∧
    (∀ x y z : ieee64.V × Nat, pairLess ieee64 x y = true → pairLess ieee64 y z = true →
      pairLess ieee64 x z = true) ∧
    (∀ x y : ieee64.V × Nat, Ieee.f64.isNaN x.1.toNat = false → Ieee.f64.isNaN y.1.toNat = false →
      pairLess ieee64 x y = true ∨ pairLess ieee64 y x = true ∨ (ieee64.eq x.1 y.1 = true ∧ x.2 = y.2)) := by
  have h := ieee64_lawful
  refine ⟨?_, ?_, ?_⟩
  · intro x; rw [pairLess_false]; exact pair_irrefl h x
  · intro x y z h1 h2
    rw [pairLess_iff] at *; exact pair_trans h _ _ _ h1 h2
  · intro x y hx hy
    rw [pairLess_iff, pairLess_iff]
    refine pair_total h x y ?_ ?_
    · show Ieee.f64.eq _ _ = true; simp [Ieee.Fmt.eq, hx]
    · show Ieee.f64.eq _ _ = true; simp [Ieee.Fmt.eq, hy]

/-- Not vacuous: 1.0 and 2.0 are ordered, ties are broken by the index, and a NaN really breaks
totality. -/
example : pairLess ieee32 (x32 0x3f800000, 7) (x32 0x40000000, 3) = true ∧
    pairLess ieee32 (x32 0x3f800000, 3) (x32 0x3f800000, 7) = true ∧
    pairLess ieee32 (x32 0x7fc00000, 3) (x32 0x3f800000, 7) = false ∧
    pairLess ieee32 (x32 0x3f800000, 7) (x32 0x7fc00000, 3) = false := by decide +kernel

/-- **C38 (partial).** `PartialSortSlice` meets its contract for every slice of non-NaN pairs, if the range
is the whole slice or has at most 20 or at least 5000000 elements.  Missing: ranges of 21 to 4999999
elements inside a larger slice, for which the property is false (`C38_refuted`). -/
theorem C38_partial {N : Num} (hN : N.Lawful) {sortPairs : List (N.V × Nat) → List (N.V × Nat)}
    (hs : SortsOn (PairLt N) (PairOk N) sortPairs) (s : List (N.V × Nat)) (b m e : Nat)
    (h1 : b ≤ m) (h2 : m ≤ e) (h3 : e ≤ s.length) (hok : ∀ p ∈ s, N.Ordinary p.1)
    (hsz : ¬ (20 < e - b ∧ e - b < 5000000) ∨ (b = 0 ∧ e = s.length)) :
    (partialSortSlice (pairLess N) sortPairs s b m e).Perm s ∧
    PartiallySorted (PairLt N) s (partialSortSlice (pairLess N) sortPairs s b m e) b m e := by
  have hp := partialSortSlice_perm hs.perm (pairLess N) s b m e h3
  obtain ⟨g1, g2⟩ := partialSortSlice_spec (contract_of_sortsOn hs) (pairOrd hN) s b m e h1 h2 h3
    (fun x hx => hok x hx) hsz
  refine ⟨hp, partiallySorted_of_get h1 h2 h3 hp g1 ?_⟩
  intro i j a1 a2 a3 a4
  exact (Le_iff _ _).1 (g2 i j a1 a2 a3 a4)

/-- **C38 as the search uses it**: `PartialSortSlice(s, 0, m, len(s))` for every slice and every `m`. -/
theorem C38_whole_slice {N : Num} (hN : N.Lawful) {sortPairs : List (N.V × Nat) → List (N.V × Nat)}
    (hs : SortsOn (PairLt N) (PairOk N) sortPairs) (s : List (N.V × Nat)) (m : Nat)
    (h : m ≤ s.length) (hok : ∀ p ∈ s, N.Ordinary p.1) :
    PartiallySorted (PairLt N) s (partialSortSlice (pairLess N) sortPairs s 0 m s.length) 0 m s.length :=
  (C38_partial hN hs s 0 m s.length (Nat.zero_le _) h le_rfl hok (Or.inr ⟨rfl, rfl⟩)).2

/-- The sort used in the examples meets the contract. -/
theorem sortPairs_sortsOn {N : Num} (hN : N.Lawful) : SortsOn (PairLt N) (PairOk N) (sortPairs N) := by
  constructor
  · intro s; exact List.perm_insertionSort _ s
  · intro s hs
    -- insertion sort with a relation that is total and transitive on the elements
    have ho := pairOrd hN
    have key : ∀ l : List (N.V × Nat), (∀ x ∈ l, PairOk N x) →
        (l.insertionSort (fun a b => pairLess N b a = false)).Pairwise (fun a b => pairLess N b a = false) := by
      intro l
      induction l with
      | nil => intro _; simp
      | cons x t ih =>
        intro hl
        have ht := ih (fun y hy => hl y (by simp [hy]))
        have hin : ∀ u : List (N.V × Nat), (∀ y ∈ u, PairOk N y) →
            u.Pairwise (fun a b => pairLess N b a = false) →
            (List.orderedInsert (fun a b => pairLess N b a = false) x u).Pairwise
              (fun a b => pairLess N b a = false) := by
          intro u
          induction u with
          | nil => intro _ _; simp
          | cons y u ihu =>
            intro hu hpw
            have hxok := hl x (by simp)
            have hyok := hu y (by simp)
            rw [List.pairwise_cons] at hpw
            rw [List.orderedInsert_cons]
            split
            · next hxy =>
              rw [List.pairwise_cons]
              refine ⟨?_, List.pairwise_cons.2 hpw⟩
              intro z hz
              rcases List.mem_cons.1 hz with rfl | hz
              · exact hxy
              · exact ho.le_trans hxok hyok (hu z (by simp [hz])) hxy (hpw.1 z hz)
            · next hxy =>
              rw [List.pairwise_cons]
              refine ⟨?_, ihu (fun z hz => hu z (by simp [hz])) hpw.2⟩
              intro z hz
              rw [List.mem_orderedInsert] at hz
              rcases hz with rfl | hz
              · exact ho.le_of_not hyok hxok (by simpa using hxy)
              · exact hpw.1 z hz
        rw [List.insertionSort_cons]
        exact hin _ (fun y hy => hl y (by
          have := (List.mem_insertionSort _).1 hy
          simp [this])) ht
    exact (key s hs).imp fun h => (pairLess_false N _ _).1 h

/-- **C38 is false as stated**: with 22 pairs and the range `[1, 22)`, position 0 (outside the range) is
overwritten, whatever correct `sort.Slice` is used. -/
theorem C38_refuted : ∃ (s : List (ieee32.V × Nat)) (b m e : Nat), b ≤ m ∧ m ≤ e ∧ e ≤ s.length ∧
    (∀ p ∈ s, ieee32.Ordinary p.1) ∧
    ∀ sp, SortsOn (PairLt ieee32) (PairOk ieee32) sp →
      ¬ PartiallySorted (PairLt ieee32) s (partialSortSlice (pairLess ieee32) sp s b m e) b m e := by
  refine ⟨(x32 0x3f800000, 0) :: List.replicate 21 (x32 0, 1), 1, 2, 22, by omega, by omega, by simp, ?_, ?_⟩
  · intro p hp
    simp only [List.mem_cons, List.mem_replicate] at hp
    rcases hp with rfl | ⟨_, rfl⟩
    · decide +kernel
    · decide +kernel
  · intro sp hsp hps
    set s : List (ieee32.V × Nat) := (x32 0x3f800000, 0) :: List.replicate 21 (x32 0, 1) with hsdef
    have hok : ∀ p ∈ s, PairOk ieee32 p := by
      intro p hp
      simp only [hsdef, List.mem_cons, List.mem_replicate] at hp
      rcases hp with rfl | ⟨_, rfl⟩
      · exact (by decide +kernel : ieee32.Ordinary (x32 0x3f800000))
      · exact (by decide +kernel : ieee32.Ordinary (x32 0))
    have hr : partialSortSlice (pairLess ieee32) sp s 1 (2 : Nat) 22 = sp s := by
      unfold partialSortSlice; simp
    have h1 := hps.before
    rw [hr] at h1
    have hsorted := hsp.sorted s hok
    have hperm := hsp.perm s
    cases hq : sp s with
    | nil => rw [hq] at hperm; have := hperm.length_eq; simp [hsdef] at this
    | cons a t =>
      rw [hq] at h1 hsorted hperm
      have ha : a = (x32 0x3f800000, 0) := by simpa [hsdef] using h1
      have hmem : ((x32 0, 1) : ieee32.V × Nat) ∈ a :: t := by
        apply hperm.mem_iff.2
        simp [hsdef]
      rw [List.pairwise_cons] at hsorted
      rcases List.mem_cons.1 hmem with h2 | h2
      · rw [ha] at h2; have := congrArg Prod.snd h2; simp at this
      · apply hsorted.1 _ h2
        rw [ha]
        left
        decide +kernel

/-- The hypotheses of `C38_partial` can be met: three pairs, the middle one first. -/
example : PartiallySorted (PairLt ieee32) [(x32 0x40000000, 1), (x32 0x3f800000, 5), (x32 0x3f800000, 2)]
    [(x32 0x3f800000, 2), (x32 0x3f800000, 5), (x32 0x40000000, 1)] 0 1 3 := by
  have h := C38_whole_slice ieee32_lawful (sortPairs_sortsOn ieee32_lawful)
    [(x32 0x40000000, 1), (x32 0x3f800000, 5), (x32 0x3f800000, 2)] 1 (by simp) (by
      intro p hp
      simp only [List.mem_cons, List.not_mem_nil, or_false] at hp
      rcases hp with rfl | rfl | rfl <;> decide +kernel)
  have e : partialSortSlice (pairLess ieee32) (sortPairs ieee32)
      [(x32 0x40000000, 1), (x32 0x3f800000, 5), (x32 0x3f800000, 2)] 0 (1 : Nat) 3
      = [(x32 0x3f800000, 2), (x32 0x3f800000, 5), (x32 0x40000000, 1)] := by decide +kernel
  rw [← e]; exact h

/-- **C40.** `SortPairs2` sorts every slice of non-NaN pairs (and permutes every slice). -/
theorem C40_sortPairs2 {N : Num} (hN : N.Lawful) (s : List (N.V × Nat)) :
    (sortPairs2 (pairLess N) s).Perm s ∧
    ((∀ p ∈ s, N.Ordinary p.1) → IsSorting (PairLt N) s (sortPairs2 (pairLess N) s)) := by
  have hp := sortPairs2_perm (pairLess N) s
  exact ⟨hp, fun hok => ⟨hp, (sortPairs2_sorted (pairOrd hN) s (fun x hx => hok x hx)).imp
    fun h => (Le_iff _ _).1 h⟩⟩

example : sortPairs2 (pairLess ieee32) [(x32 0x40000000, 1), (x32 0x3f800000, 5), (x32 0x3f800000, 2), (x32 0xc0000000, 9)]
    = [(x32 0xc0000000, 9), (x32 0x3f800000, 2), (x32 0x3f800000, 5), (x32 0x40000000, 1)] := by decide +kernel

/-- **C39.** `PartialSortSlice2` meets the contract for every `begin ≤ middle ≤ end ≤ len` (not only for
the whole slice). -/
theorem C39_partialSortSlice2 {N : Num} (hN : N.Lawful) {sortPairs : List (N.V × Nat) → List (N.V × Nat)}
    (hs : SortsOn (PairLt N) (PairOk N) sortPairs) (s : List (N.V × Nat)) (b m e : Nat)
    (h1 : b ≤ m) (h2 : m ≤ e) (h3 : e ≤ s.length) (hok : ∀ p ∈ s, N.Ordinary p.1) :
    PartiallySorted (PairLt N) s (partialSortSlice2 (pairLess N) sortPairs s b m e) b m e := by
  have ho := pairOrd hN
  unfold partialSortSlice2
  split
  · next hc =>
    have hb : b = 0 := by omega
    have hm : m = s.length := by omega
    have he : e = s.length := by omega
    subst hb; subst hm; subst he
    have hl := (hs.perm s).length_eq
    refine ⟨by simp, by simp [hl], ?_, ?_, ?_⟩
    · simpa [List.take_of_length_le (Nat.le_of_eq hl)] using hs.perm s
    · have := hs.sorted s (fun x hx => hok x hx)
      simpa [← hl] using this
    · intro x _ y hy; simp [← hl] at hy
  · next hc =>
    split
    · next hc2 =>
      have hbm : m = b := by omega
      subst hbm
      exact ⟨rfl, rfl, List.Perm.refl _, by simp, by intro x hx; simp at hx⟩
    · next hc2 =>
      dsimp only
      have hmid : (m : Int).toNat = m := by simp
      rw [hmid]
      set w := (s.drop b).take (m - b) with hw
      set t := (s.drop m).take (e - m) with ht
      have hwl : w.length = m - b := by simp [hw]; omega
      have htl : t.length = e - m := by simp [ht]; omega
      have hPw : ∀ x ∈ w, PairOk N x := fun x hx =>
        hok x (List.mem_of_mem_drop (List.mem_of_mem_take hx))
      have hPt : ∀ x ∈ t, PairOk N x := fun x hx =>
        hok x (List.mem_of_mem_drop (List.mem_of_mem_take hx))
      obtain ⟨b1, _, b3⟩ := buildMaxHeap_spec (pairLess N) w (m - b) (by omega)
      obtain ⟨c1, c2, c3⟩ := select2Loop_spec (less := pairLess N) (P := PairOk N) (m - b) (by omega) t
        (buildMaxHeap (pairLess N) w (m - b)) [] (by rw [b1.length_eq, hwl])
      have c4 := c3 ho (perm_P b1 hPw) (by simp) hPt (b3 ho hPw) (by simp)
      generalize select2Loop (pairLess N) (m - b) (buildMaxHeap (pairLess N) w (m - b)) [] t = res at c1 c2 c4
      obtain ⟨h, rest⟩ := res
      simp only at c1 c2 c4 ⊢
      have hwt : (s.drop b).take (e - b) = w ++ t := by
        have hb' : s.drop m = (s.drop b).drop (m - b) := by rw [List.drop_drop]; congr 1; omega
        rw [hw, ht, hb']
        have : e - b = (m - b) + (e - m) := by omega
        rw [this, List.take_add]
      have hperm0 : (h ++ rest).Perm (w ++ t) := by
        refine c1.trans ?_
        simp only [List.append_nil]
        exact b1.append_right _
      have hPh : ∀ x ∈ h, PairOk N x := by
        intro x hx
        have := hperm0.mem_iff.1 (List.mem_append_left rest hx)
        rcases List.mem_append.1 this with h' | h'
        · exact hPw x h'
        · exact hPt x h'
      have hsp := sortPairs2_perm (pairLess N) h
      have hss := sortPairs2_sorted ho h hPh
      have hshl : (sortPairs2 (pairLess N) h).length = m - b := by rw [hsp.length_eq, c2]
      have hrl : rest.length = e - m := by
        have := hperm0.length_eq
        simp [c2, hwl, htl] at this; omega
      have hbl : (s.take b).length = b := by simp; omega
      generalize sortPairs2 (pairLess N) h = g at hsp hss hshl
      have r1 : ((s.take b ++ g ++ rest ++ s.drop e).drop b) = g ++ rest ++ s.drop e := by
        have : (s.take b ++ g ++ rest ++ s.drop e) = s.take b ++ (g ++ rest ++ s.drop e) := by simp
        rw [this, List.drop_left' hbl]
      have r2 : ((s.take b ++ g ++ rest ++ s.drop e).drop m) = rest ++ s.drop e := by
        have : (s.take b ++ g ++ rest ++ s.drop e) = (s.take b ++ g) ++ (rest ++ s.drop e) := by simp
        rw [this, List.drop_left' (by simp [hshl]; omega)]
      refine ⟨?_, ?_, ?_, ?_, ?_⟩
      · have : (s.take b ++ g ++ rest ++ s.drop e) = s.take b ++ (g ++ rest ++ s.drop e) := by simp
        rw [this, List.take_left' hbl]
      · exact List.drop_left' (by simp [hshl, hrl]; omega)
      · rw [r1, hwt, List.take_left' (by simp [hshl, hrl]; omega)]
        exact (hsp.append_right _).trans hperm0
      · rw [r1, List.append_assoc, List.take_left' hshl]
        exact hss.imp fun h => (Le_iff _ _).1 h
      · rw [r1, r2, List.append_assoc, List.take_left' hshl, List.take_left' hrl]
        intro x hx y hy
        exact (Le_iff _ _).1 (c4 x (hsp.mem_iff.1 hx) y hy)

/-- A range in the middle of a slice, which `PartialSortSlice2` really rearranges. -/
example : partialSortSlice2 (pairLess ieee32) (sortPairs ieee32)
      [(x32 0x40400000, 0), (x32 0x40000000, 1), (x32 0x3f800000, 5), (x32 0x3f800000, 2), (x32 0, 9)] 1 (2 : Nat) 4
    = [(x32 0x40400000, 0), (x32 0x3f800000, 2), (x32 0x40000000, 1), (x32 0x3f800000, 5), (x32 0, 9)] := by
  decide +kernel

/-- Runs calls on the model of the priority queue; returns the final queue and the results of `Pop`. -/
def runQueue (N : Num) : List (N.V × Nat) → List (QOp (N.V × Nat)) →
    List (N.V × Nat) × List (Option (N.V × Nat))
  | q, [] => (q, [])
  | q, .push x :: ops => runQueue N (Heap.push (pairLess N) q x) ops
  | q, .pop :: ops =>
    match Heap.pop (pairLess N) q with
    | none => ((runQueue N q ops).1, none :: (runQueue N q ops).2)
    | some (x, q') => ((runQueue N q' ops).1, some x :: (runQueue N q' ops).2)

theorem runQueue_spec {N : Num} (hN : N.Lawful) (ops : List (QOp (N.V × Nat))) :
    ∀ (q : List (N.V × Nat)) (ops0 : List (QOp (N.V × Nat))) (outs0 : List (Option (N.V × Nat))),
    (∀ p, QOp.push p ∈ ops → N.Ordinary p.1) → (∀ p ∈ q, PairOk N p) →
    Heap.IsHeap (pairLess N) q q.length → QueueRun (PairLt N) ops0 outs0 q →
    QueueRun (PairLt N) (ops0 ++ ops) (outs0 ++ (runQueue N q ops).2) (runQueue N q ops).1 ∧
    (∀ p ∈ (runQueue N q ops).1, PairOk N p) ∧
    Heap.IsHeap (pairLess N) (runQueue N q ops).1 (runQueue N q ops).1.length := by
  induction ops with
  | nil => intro q ops0 outs0 _ hq hh hr; simpa [runQueue] using ⟨hr, fun a b h => hq (a, b) h, hh⟩
  | cons op ops ih =>
    intro q ops0 outs0 hops hq hh hr
    have ho := pairOrd hN
    have hops' : ∀ p, QOp.push p ∈ ops → N.Ordinary p.1 := fun p hp => hops p (by simp [hp])
    cases op with
    | push x =>
      have hx : PairOk N x := hops x (by simp)
      have hp := Heap.push_perm (pairLess N) q x
      have := ih (Heap.push (pairLess N) q x) (ops0 ++ [.push x]) outs0 hops'
        (by intro p hp'
            rcases List.mem_cons.1 (hp.mem_iff.1 hp') with h | h
            · rw [h]; exact hx
            · exact hq p h)
        (Heap.push_heap ho q x hq hx hh) (QueueRun.push x hr hp)
      simpa [runQueue] using this
    | pop =>
      unfold runQueue
      cases hpop : Heap.pop (pairLess N) q with
      | none =>
        have hq0 := (Heap.pop_none (pairLess N) q).1 hpop
        subst hq0
        have := ih [] (ops0 ++ [.pop]) (outs0 ++ [none]) hops' (by simp) hh (QueueRun.popEmpty hr)
        simpa using this
      | some xq =>
        obtain ⟨x, q'⟩ := xq
        have hp := Heap.pop_perm (pairLess N) q x q' hpop
        obtain ⟨g1, g2, g3⟩ := Heap.pop_heap ho q x q' hq hh hpop
        have := ih q' (ops0 ++ [.pop]) (outs0 ++ [some x]) hops'
          (fun p hp' => hq p (hp.mem_iff.1 (by simp [hp'])))
          g1 (QueueRun.pop x hr hp (fun y hy => (Le_iff _ _).1 (g3 y hy)))
        simpa using this

/-- **C41.** For every sequence of `Push` and `Pop` on an empty queue with non-NaN priorities, the
results are those of a priority queue, the queue holds exactly the elements pushed and not popped, and
`Top` is a smallest one. -/
theorem C41_priority_queue {N : Num} (hN : N.Lawful) (ops : List (QOp (N.V × Nat)))
    (hops : ∀ p, QOp.push p ∈ ops → N.Ordinary p.1) :
    QueueRun (PairLt N) ops (runQueue N [] ops).2 (runQueue N [] ops).1 ∧
    ∀ t, Heap.top (runQueue N [] ops).1 = some t →
      t ∈ (runQueue N [] ops).1 ∧ ∀ y ∈ (runQueue N [] ops).1, NotAfter (PairLt N) t y := by
  obtain ⟨h1, h2, h3⟩ := runQueue_spec hN ops [] [] [] hops (by simp)
    (by intro k _ hk; simp at hk) QueueRun.start
  refine ⟨by simpa using h1, ?_⟩
  generalize (runQueue N [] ops).1 = q at h1 h2 h3
  intro t ht
  unfold Heap.top at ht
  have hm : t ∈ q := List.mem_of_head? ht
  have h0 : get q 0 = t := by
    cases q with
    | nil => simp at ht
    | cons a l => simp at ht; simp [Srt.get, ht]
  refine ⟨hm, ?_⟩
  intro y hy
  obtain ⟨k, hk, rfl⟩ := mem_get hy
  rw [← h0]
  exact (Le_iff _ _).1 (Heap.heap_root (pairOrd hN) q _ le_rfl h2 h3 k hk)

example : (runQueue ieee32 [] [.push (x32 0x40000000, 1), .push (x32 0x3f800000, 5), .pop,
      .push (x32 0x3f800000, 2), .pop, .pop, .pop]).2
    = [some (x32 0x3f800000, 5), some (x32 0x3f800000, 2), some (x32 0x40000000, 1), none] := by
  decide +kernel

/-! ### Intersection -/

theorem mergeCommon_count (a b : List Nat) (ha : a.Pairwise (· ≤ ·)) (hb : b.Pairwise (· ≤ ·)) (x : Nat) :
    (mergeCommon a b).count x = min (a.count x) (b.count x) := by
  fun_induction mergeCommon a b with
  | case1 => simp
  | case2 => simp
  | case3 a as b bs h ih =>
    rw [ih (List.pairwise_cons.1 ha).2 hb]
    by_cases hx : x = a
    · subst hx
      have h0 : (b :: bs).count x = 0 := by
        rw [List.count_eq_zero]
        intro hm
        rcases List.mem_cons.1 hm with h1 | h1
        · omega
        · have := (List.pairwise_cons.1 hb).1 x h1; omega
      simp [h0]
    · rw [List.count_cons_of_ne (Ne.symm hx)]
  | case4 a as b bs h1 h ih =>
    rw [ih ha (List.pairwise_cons.1 hb).2]
    by_cases hx : x = b
    · subst hx
      have h0 : (a :: as).count x = 0 := by
        rw [List.count_eq_zero]
        intro hm
        rcases List.mem_cons.1 hm with h2 | h2
        · omega
        · have := (List.pairwise_cons.1 ha).1 x h2; omega
      simp [h0]
    · rw [List.count_cons_of_ne (Ne.symm hx)]
  | case5 a as b bs h1 h2 ih =>
    have : a = b := by omega
    subst this
    by_cases hx : x = a
    · subst hx
      rw [List.count_cons_self, List.count_cons_self, List.count_cons_self,
        ih (List.pairwise_cons.1 ha).2 (List.pairwise_cons.1 hb).2]
      omega
    · rw [List.count_cons_of_ne (Ne.symm hx), List.count_cons_of_ne (Ne.symm hx),
        List.count_cons_of_ne (Ne.symm hx), ih (List.pairwise_cons.1 ha).2 (List.pairwise_cons.1 hb).2]

theorem mergeCommon_sublist (a b : List Nat) : (mergeCommon a b).Sublist a := by
  fun_induction mergeCommon a b with
  | case1 => simp
  | case2 => simp
  | case3 a as b bs h ih => exact ih.cons _
  | case4 a as b bs h1 h ih => exact ih
  | case5 a as b bs h1 h2 ih => exact ih.cons_cons _

/-- **C42**, `Max`: the larger of the two. -/
theorem C42_max (a b : Nat) : umax a b = max a b := by
  unfold umax
  split <;> omega

/-- **C42.** `Intersection` returns in ascending order every value as often as it occurs in both
arguments, and leaves the arguments sorted.  `sortIds` is any correct sort. -/
theorem C42_intersection {sortIds : List Nat → List Nat} (h1 : ∀ l, (sortIds l).Perm l)
    (h2 : ∀ l, (sortIds l).Pairwise (· ≤ ·)) (a b : List Nat) :
    (∀ x, (intersection sortIds a b).1.count x = min (a.count x) (b.count x)) ∧
    (intersection sortIds a b).1.Pairwise (· ≤ ·) ∧
    IsSorting (· < ·) a (intersection sortIds a b).2.1 ∧
    IsSorting (· < ·) b (intersection sortIds a b).2.2 := by
  refine ⟨?_, ?_, ⟨h1 a, ?_⟩, ⟨h1 b, ?_⟩⟩
  · intro x
    show (mergeCommon (sortIds a) (sortIds b)).count x = _
    rw [mergeCommon_count _ _ (h2 a) (h2 b), (h1 a).count_eq, (h1 b).count_eq]
  · exact (h2 a).sublist (mergeCommon_sublist _ _)
  · exact (h2 a).imp fun h => Nat.not_lt.2 h
  · exact (h2 b).imp fun h => Nat.not_lt.2 h

example : intersection sortNat [5, 3, 3, 9, 1] [3, 9, 3, 3, 7] = ([3, 3, 9], [1, 3, 3, 5, 9], [3, 3, 3, 7, 9]) := by
  decide +kernel

end Annoy
