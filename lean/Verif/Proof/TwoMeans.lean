import Verif.Spec.TwoMeans
import Verif.Proof.DataBlind
import Verif.Props.Hyperplane
/-!
# `TwoMeans` on nodes is the specification on vectors
-/
namespace Annoy
open Means

section
variable {N : Num} {L : Layout} {C : Codec N.V} {R : Rng}

/-- The norm stored in a node is the one of its vector, or missing. -/
def CachedNorm (L : Layout) (C : Codec N.V) (b : Bytes) (a : Nat) : Prop :=
  Node.norm L C b a = Vec.dot N (Node.vec L C b a) (Node.vec L C b a) ∨ N.eq (Node.norm L C b a) N.zero = true

theorem CachedNorm.distance (hN : N.MulLaws) {b b' : Bytes} {a a' : Nat} (h : CachedNorm L C b a) (h' : CachedNorm L C b' a') :
    Angular.distance (L := L) C b a b' a' = angularFormula N (Node.vec L C b a) (Node.vec L C b' a') :=
  Vec.cosDistance_formula hN _ _ h h'

/-- What `InitNode` and the blocks of the two centroids keep. -/
structure KeepsCentroid (L : Layout) (C : Codec N.V) (init : Bytes → Nat → Bytes) (I : Bytes → Prop) : Prop where
  cached : ∀ p, I p → CachedNorm L C p 0
  vec : ∀ b, Node.vec L C (init b 0) 0 = Node.vec L C b 0
  keep : ∀ p v, I p → v.length = L.f → I (init (Node.setVec L C p 0 v) 0)

theorem twoMeansStep_see (hN : N.MulLaws) {mem : Bytes} {addrs : List Nat} (hmem : ∀ a ∈ addrs, CachedNorm L C mem a)
    {init : Bytes → Nat → Bytes} {I : Bytes → Prop} (hI : KeepsCentroid L C init I) {p q : Bytes} (hp : I p) (hq : I q)
    {ic jc : N.W} {r : R.σ} {st : Bytes × Bytes × N.W × N.W × R.σ}
    (h : twoMeansStep (L := L) C mem addrs true (Angular.distance (L := L) C) init (p, q, ic, jc, r) = .ok st) :
    ∃ k nk, R.nextIndex r addrs.length = .ok (k, st.2.2.2.2) ∧ addrs[k]? = some nk ∧ I st.1 ∧ I st.2.1 ∧
      ((⟨Node.vec L C st.1 0, st.2.2.1⟩, ⟨Node.vec L C st.2.1 0, st.2.2.2.1⟩) : Mean N × Mean N) =
        see (angularFormula N) (⟨Node.vec L C p 0, ic⟩, ⟨Node.vec L C q 0, jc⟩) (Node.vec L C mem nk) := by
  unfold twoMeansStep at h
  cases hk : R.nextIndex r addrs.length with
  | error e => simp only [bind, Except.bind, hk] at h; cases h
  | ok x =>
    obtain ⟨k, r'⟩ := x
    simp only [bind, Except.bind, hk] at h
    cases hnk : addrs[k]? with
    | none => rw [hnk] at h; cases h
    | some nk =>
      rw [hnk] at h
      have hc := hmem nk (List.mem_of_getElem? hnk)
      have hl : ∀ b : Bytes, ∀ a, (Node.vec L C b a).length = L.f := fun b a => by simp [Node.vec]
      dsimp only at h
      rw [(hI.cached p hp).distance hN hc, (hI.cached q hq).distance hN hc] at h
      simp only [if_true] at h
      by_cases h0 : N.lt N.zero (Vec.getNorm N (Node.vec L C mem nk)) = true
      · rw [if_neg (by rw [h0]; decide)] at h
        split at h
        · next hlt =>
          cases h
          refine ⟨k, nk, rfl, hnk, hI.keep _ _ hp (by simp [hl]), hq, ?_⟩
          refine .trans ?_ ((if_pos h0).trans (if_pos hlt)).symm
          dsimp only
          rw [hI.vec, Node.vec_setVec C _ _ _ (by simp [hl])]
          unfold Mean.join unit
          rw [List.zipWith_map_right]
          rfl
        · next hlt =>
          split at h
          · next hlt' =>
            cases h
            refine ⟨k, nk, rfl, hnk, hp, hI.keep _ _ hq (by simp [hl]), ?_⟩
            refine .trans ?_ ((if_pos h0).trans ((if_neg hlt).trans (if_pos hlt'))).symm
            dsimp only
            rw [hI.vec, Node.vec_setVec C _ _ _ (by simp [hl])]
            unfold Mean.join unit
            rw [List.zipWith_map_right]
            rfl
          · next hlt' =>
            cases h
            exact ⟨k, nk, rfl, hnk, hp, hq, ((if_pos h0).trans ((if_neg hlt).trans (if_neg hlt'))).symm⟩
      · rw [if_pos (by simpa using h0)] at h
        cases h
        exact ⟨k, nk, rfl, hnk, hp, hq, (if_neg h0).symm⟩

theorem iter_see (hN : N.MulLaws) {mem : Bytes} {addrs : List Nat} (hmem : ∀ a ∈ addrs, CachedNorm L C mem a)
    {init : Bytes → Nat → Bytes} {I : Bytes → Prop} (hI : KeepsCentroid L C init I) (n : Nat) : ∀ {p q : Bytes}, I p → I q →
    ∀ {ic jc : N.W} {r : R.σ} {st : Bytes × Bytes × N.W × N.W × R.σ},
    iterM (twoMeansStep (L := L) C mem addrs true (Angular.distance (L := L) C) init) n (p, q, ic, jc, r) = .ok st →
    ∃ (ks nks : List Nat), ks.length = n ∧ Drawn R addrs.length r ks st.2.2.2.2 ∧ ks.map (addrs[·]?) = nks.map some ∧
      ((⟨Node.vec L C st.1 0, st.2.2.1⟩, ⟨Node.vec L C st.2.1 0, st.2.2.2.1⟩) : Mean N × Mean N) =
        (nks.map (Node.vec L C mem)).foldl (see (angularFormula N)) (⟨Node.vec L C p 0, ic⟩, ⟨Node.vec L C q 0, jc⟩) := by
  induction n with
  | zero =>
    intro p q _ _ ic jc r st h
    cases h
    exact ⟨[], [], rfl, rfl, rfl, rfl⟩
  | succ n ih =>
    intro p q hp hq ic jc r st h
    unfold iterM at h
    cases h1 : twoMeansStep (L := L) C mem addrs true (Angular.distance (L := L) C) init (p, q, ic, jc, r) with
    | error e => rw [h1] at h; cases h
    | ok st1 =>
      rw [h1] at h
      obtain ⟨k, nk, hk, hnk, hp', hq', he⟩ := twoMeansStep_see hN hmem hI hp hq h1
      obtain ⟨p1, q1, ic1, jc1, r1⟩ := st1
      obtain ⟨ks, nks, hlen, hdr, hks, he'⟩ := ih hp' hq' h
      refine ⟨k :: ks, nk :: nks, by simp [hlen], ⟨r1, hk, hdr⟩, by simp [hnk, hks], ?_⟩
      rw [List.map_cons, List.foldl_cons, ← he]
      exact he'

/-- The vector of the block `CopyNode` fills. -/
def startVec (L : Layout) (C : Codec N.V) (mem : Bytes) (a : Nat) : List N.V := Node.vec L C (Node.copyNode zeros 0 mem a L.f) 0

theorem twoMeans_after (hN : N.MulLaws) {mem : Bytes} {addrs : List Nat} (hmem : ∀ a ∈ addrs, CachedNorm L C mem a)
    {normalize init : Bytes → Nat → Bytes} {I : Bytes → Prop} (hI : KeepsCentroid L C init I)
    (hstart : ∀ a ∈ addrs, I (init (normalize (Node.copyNode zeros 0 mem a L.f) 0) 0))
    (hnorm : ∀ a ∈ addrs, Node.vec L C (normalize (Node.copyNode zeros 0 mem a L.f) 0) 0 = Vec.normalize N (startVec L C mem a))
    {r : R.σ} {p q : Bytes} {r' : R.σ}
    (h : twoMeans (L := L) C mem addrs r true (Angular.distance (L := L) C) normalize init = .ok (p, q, r')) :
    ∃ (i j ni nj : Nat) (r1 : R.σ) (ks nks : List Nat), twoMeansPick (R := R) addrs.length r = .ok (i, j, r1) ∧ addrs[i]? = some ni ∧ addrs[j]? = some nj ∧
      ks.length = 200 ∧ Drawn R addrs.length r1 ks r' ∧ ks.map (addrs[·]?) = nks.map some ∧
      (Node.vec L C p 0, Node.vec L C q 0) =
        let s := after (angularFormula N) (Vec.normalize N (startVec L C mem ni)) (Vec.normalize N (startVec L C mem nj))
          (nks.map (Node.vec L C mem))
        (s.1.vec, s.2.vec) := by
  unfold twoMeans at h
  cases hpick : twoMeansPick (R := R) addrs.length r with
  | error e => rw [hpick] at h; cases h
  | ok x =>
    obtain ⟨i, j, r1⟩ := x
    rw [hpick] at h
    dsimp only [bind, Except.bind] at h
    cases hi : addrs[i]? with
    | none => rw [hi] at h; cases h
    | some ni =>
      cases hj : addrs[j]? with
      | none => rw [hi, hj] at h; cases h
      | some nj =>
        rw [hi, hj] at h
        dsimp only at h
        rw [if_pos rfl, if_pos rfl] at h
        have mi := List.mem_of_getElem? hi
        have mj := List.mem_of_getElem? hj
        cases hit : iterM (twoMeansStep (L := L) C mem addrs true (Angular.distance (L := L) C) init) 200
          (init (normalize (Node.copyNode zeros 0 mem ni L.f) 0) 0, init (normalize (Node.copyNode zeros 0 mem nj L.f) 0) 0, N.oneW, N.oneW, r1) with
        | error e => rw [hit] at h; cases h
        | ok st =>
          rw [hit] at h
          obtain ⟨ks, nks, hlen, hdr, hks, he⟩ := iter_see hN hmem hI 200 (hstart ni mi) (hstart nj mj) hit
          obtain ⟨p1, q1, ic, jc, r2⟩ := st
          cases h
          refine ⟨i, j, ni, nj, r1, ks, nks, rfl, hi, hj, hlen, hdr, hks, ?_⟩
          rw [hI.vec, hI.vec, hnorm ni mi, hnorm nj mj] at he
          unfold after
          rw [← he]

end
end Annoy
