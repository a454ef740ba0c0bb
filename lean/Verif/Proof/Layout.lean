import Verif.Spec.Layout
import Verif.Proof.Bytes
import Mathlib.Tactic.IntervalCases
/-!
Lemmas about node layout, addresses and the accessors of a node.
-/
namespace Annoy

theorem alignUp_ge (x a : Nat) (h : 0 < a) : x ≤ alignUp x a := by
  unfold alignUp
  have := Nat.lt_div_mul_add (a := x + a - 1) h
  omega

theorem alignUp_le (x a : Nat) : alignUp x a ≤ x + a - 1 := by
  unfold alignUp
  exact Nat.div_mul_le_self _ _

theorem angularLayout_ok {szIX szV f : Nat} (h1 : szIX = 4 ∨ szIX = 8) (h2 : szV = 4 ∨ szV = 8)
    (h3 : 3 * szIX + szV + f * szV < 2 ^ (8 * szIX)) : (angularLayout szIX szV f).Ok szV := by
  have hg := alignUp_ge (3 * szIX) szV (by omega)
  have hl := alignUp_le (3 * szIX) szV
  have hmod : (alignUp (3 * szIX) szV + f * szV) % 2 ^ (8 * szIX)
      = alignUp (3 * szIX) szV + f * szV := Nat.mod_eq_of_lt (by omega)
  have hpos : 0 < szIX := by omega
  constructor <;> (try simp only [angularLayout, hmod, Layout.range])
  · exact hpos
  · omega
  · omega
  · exact hg
  · omega
  · have := Nat.div_mul_le_self (alignUp (3 * szIX) szV + f * szV - szIX) szIX
    omega
  · have := Nat.lt_div_mul_add (a := alignUp (3 * szIX) szV + f * szV - szIX) hpos
    rw [Nat.add_mul]; omega

theorem dotLayout_ok {szIX szV f : Nat} (h1 : szIX = 4 ∨ szIX = 8) (h2 : szV = 4 ∨ szV = 8)
    (h3 : 3 * szIX + 2 * szV + f * szV < 2 ^ (8 * szIX)) : (dotLayout szIX szV f).Ok szV := by
  have hg := alignUp_ge (3 * szIX) szV (by omega)
  have hl := alignUp_le (3 * szIX) szV
  have hmod : (alignUp (3 * szIX) szV + szV + f * szV) % 2 ^ (8 * szIX)
      = alignUp (3 * szIX) szV + szV + f * szV := Nat.mod_eq_of_lt (by omega)
  have hpos : 0 < szIX := by omega
  constructor <;> (try simp only [dotLayout, hmod, Layout.range])
  · exact hpos
  · omega
  · omega
  · omega
  · omega
  · have := Nat.div_mul_le_self (alignUp (3 * szIX) szV + szV + f * szV - szIX) szIX
    omega
  · have := Nat.lt_div_mul_add (a := alignUp (3 * szIX) szV + szV + f * szV - szIX) hpos
    rw [Nat.add_mul]; omega

namespace Layout
variable {L : Layout} {sz : Nat}

theorem Ok.nodeSize_pos (h : L.Ok sz) : 0 < L.nodeSize := by
  have := h.offV_ge; have := h.szIX_pos; have := h.size_eq; omega

theorem Ok.range_pos (_ : L.Ok sz) : 0 < L.range := by unfold Layout.range; positivity

theorem Ok.three_le (h : L.Ok sz) : 3 * L.szIX ≤ L.nodeSize := by
  have := h.offV_ge; have := h.size_eq; omega

theorem Ok.K_ge (h : L.Ok sz) : 2 ≤ L.K := by
  have h1 := h.three_le; have h2 := h.K_max; have h3 := h.szIX_pos
  by_contra hk
  have : L.K + 1 ≤ 2 := by omega
  have : (L.K + 1) * L.szIX ≤ 2 * L.szIX := Nat.mul_le_mul_right _ this
  omega

theorem Ok.deep (_ : L.Ok sz) (h : 3 * L.szIX ≤ L.f) {B : Nat} (hB : B ≤ L.range) : L.Deep B := by
  refine ⟨by omega, hB.trans ?_⟩
  unfold Layout.range
  exact Nat.pow_le_pow_right (by omega) (by omega)

theorem Deep.mono {B B' : Nat} (h : L.Deep B) (hB : B' ≤ B) : L.Deep B' := ⟨h.1, hB.trans h.2⟩

theorem Ok.f_le (h : L.Ok sz) : L.f ≤ L.nodeSize := by
  have h1 := h.size_eq; have h2 := h.sz_pos
  have : L.f * 1 ≤ L.f * sz := Nat.mul_le_mul_left _ h2
  omega

theorem wrap_eq (L : Layout) {n : Nat} (h : n < L.range) : L.wrap n = n := Nat.mod_eq_of_lt h

theorem addr_eq (L : Layout) {i : Nat} (h : i * L.nodeSize < L.range) : L.addr i = i * L.nodeSize :=
  L.wrap_eq h

theorem Fits.mono {n m : Nat} (h : L.Fits n) (hm : m ≤ n) : L.Fits m := by
  unfold Layout.Fits at *
  have : 3 * m * L.nodeSize ≤ 3 * n * L.nodeSize := Nat.mul_le_mul_right _ (by omega)
  omega

theorem Fits.mul_lt {n : Nat} (h : L.Fits n) : n * L.nodeSize < L.range := by
  unfold Layout.Fits at h
  rw [Nat.mul_assoc] at h
  omega

theorem Fits.lt_range {n : Nat} (h : L.Fits n) (hp : 0 < L.nodeSize) : n < L.range := by
  have := h.mul_lt
  have : n * 1 ≤ n * L.nodeSize := Nat.mul_le_mul_left _ hp
  omega

theorem Fits.addr {n i : Nat} (h : L.Fits n) (hi : i ≤ n) : L.addr i = i * L.nodeSize :=
  L.addr_eq (h.mono hi).mul_lt

/-- The grown size also fits. -/
theorem Fits.grow {n : Nat} (h : L.Fits n) : 3 * n / 2 * L.nodeSize < L.range := by
  unfold Layout.Fits at h
  have h1 : 3 * n / 2 * 2 ≤ 3 * n := Nat.div_mul_le_self _ _
  have h2 : (3 * n / 2 * 2) * L.nodeSize ≤ 3 * n * L.nodeSize := Nat.mul_le_mul_right _ h1
  have h3 : (3 * n / 2 * 2) * L.nodeSize = 2 * (3 * n / 2 * L.nodeSize) := by ring
  omega

end Layout

namespace Node
variable {L : Layout} {V : Type} (C : Codec V)

/-- Two memories agree on the bytes of a node at (possibly different) addresses. -/
def Same (n : Nat) (b : Bytes) (a : Nat) (b' : Bytes) (a' : Nat) : Prop :=
  ∀ j, j < n → b (a + j) = b' (a' + j)

theorem nDesc_congr {b b' : Bytes} {a a' : Nat} (h : Same L.szIX b a b' a') :
    nDesc L b a = nDesc L b' a' := readLE_congr h

theorem child_congr {b b' : Bytes} {a a' k : Nat} (h : Same ((k + 2) * L.szIX) b a b' a') :
    child L b a k = child L b' a' k := by
  unfold child
  apply readLE_congr
  intro j hj
  have := h (L.szIX + k * L.szIX + j) (by
    have : (k + 2) * L.szIX = L.szIX + k * L.szIX + L.szIX := by ring
    omega)
  simpa [Nat.add_assoc] using this

theorem Same.mono {n m : Nat} {b b' : Bytes} {a a' : Nat} (h : Same n b a b' a') (hm : m ≤ n) :
    Same m b a b' a' := fun j hj => h j (by omega)

theorem Same.symm {n : Nat} {b b' : Bytes} {a a' : Nat} (h : Same n b a b' a') :
    Same n b' a' b a := fun j hj => (h j hj).symm

theorem Same.trans {n : Nat} {b b' b'' : Bytes} {a a' a'' : Nat} (h : Same n b a b' a')
    (h' : Same n b' a' b'' a'') : Same n b a b'' a'' := fun j hj => (h j hj).trans (h' j hj)

theorem getChildren_congr {b b' : Bytes} {a a' n : Nat} (h : Same n b a b' a')
    (h1 : L.szIX ≤ n) (hn : L.szIX + nDesc L b a * L.szIX ≤ n) :
    getChildren L b a = getChildren L b' a' := by
  unfold getChildren
  rw [← nDesc_congr (h.mono h1)]
  apply List.map_congr_left
  intro k hk
  apply child_congr
  apply h.mono
  have : k + 1 ≤ nDesc L b a := List.mem_range.1 hk
  have := Nat.mul_le_mul_right L.szIX this
  have h2 : (k + 2) * L.szIX = (k + 1) * L.szIX + L.szIX := by ring
  omega

theorem vec_congr {b b' : Bytes} {a a' : Nat}
    (h : ∀ j, j < L.f * C.sz → b (a + L.offV + j) = b' (a' + L.offV + j)) :
    vec L C b a = vec L C b' a' := by
  unfold vec
  apply List.map_congr_left
  intro k hk
  congr 1
  apply readBytes_congr
  intro j hj
  have hk' : k + 1 ≤ L.f := List.mem_range.1 hk
  have := Nat.mul_le_mul_right C.sz hk'
  rw [Nat.add_mul] at this
  have := h (k * C.sz + j) (by omega)
  simpa [Nat.add_assoc] using this

@[simp] theorem vec_length (b : Bytes) (a : Nat) : (vec L C b a).length = L.f := by simp [vec]

@[simp] theorem getChildren_length (b : Bytes) (a : Nat) :
    (getChildren L b a).length = nDesc L b a := by simp [getChildren]

/-! ### read after write -/

theorem nDesc_setNDesc (b : Bytes) (a n : Nat) (h : n < L.range) :
    nDesc L (setNDesc L b a n) a = n := by
  unfold nDesc setNDesc
  rw [readLE_writeLE_same]
  exact Nat.mod_eq_of_lt h

theorem setNDesc_frame (b : Bytes) (a n x : Nat) (h : x < a ∨ a + L.szIX ≤ x) :
    setNDesc L b a n x = b x := by
  unfold setNDesc writeLE
  apply writeBytes_outside
  simpa using h

theorem flatMap_leBytes_length (k : Nat) (cs : List Nat) :
    (cs.flatMap (leBytes k)).length = cs.length * k := by
  induction cs with
  | nil => simp
  | cons c cs ih => simp [ih, Nat.add_mul]; omega

theorem setChildren_frame (b : Bytes) (a : Nat) (cs : List Nat) (x : Nat)
    (h : x < a + L.szIX ∨ a + L.szIX + cs.length * L.szIX ≤ x) :
    setChildren L b a cs x = b x := by
  unfold setChildren
  apply writeBytes_outside
  rw [flatMap_leBytes_length]
  exact h

/-- The bytes of one element of an encoded list. -/
theorem flatMap_sub {α : Type} (enc : α → List Byte) (k : Nat) (henc : ∀ v, (enc v).length = k)
    (l : List α) (i : Nat) (hi : i < l.length) :
    ((l.flatMap enc).drop (i * k)).take k = enc l[i] := by
  induction l generalizing i with
  | nil => simp at hi
  | cons x xs ih =>
    cases i with
    | zero => simp [henc x]
    | succ i =>
      have hi' : i < xs.length := by simpa using hi
      have := ih i hi'
      simp only [List.flatMap_cons, List.getElem_cons_succ]
      have h1 : (i + 1) * k = (enc x).length + i * k := by rw [henc]; ring
      rw [h1, List.drop_length_add_append]
      exact this

theorem child_setChildren (b : Bytes) (a : Nat) (cs : List Nat) (k : Nat) (hk : k < cs.length)
    (hc : cs[k] < L.range) : child L (setChildren L b a cs) a k = cs[k] := by
  unfold child setChildren readLE
  have hlen := flatMap_leBytes_length L.szIX cs
  have h1 : k * L.szIX + L.szIX ≤ cs.length * L.szIX := by
    have := Nat.mul_le_mul_right L.szIX hk
    rw [Nat.succ_mul] at this
    exact this
  rw [readBytes_writeBytes_sub _ _ _ _ _ (by rw [hlen]; exact h1),
    flatMap_sub _ L.szIX (fun v => leBytes_length _ v) _ _ hk, ofLE_leBytes]
  exact Nat.mod_eq_of_lt hc

theorem vec_setVec (b : Bytes) (a : Nat) (v : List V) (hv : v.length = L.f) :
    vec L C (setVec L C b a v) a = v := by
  unfold vec setVec
  apply List.ext_getElem
  · simp [hv]
  · intro k h1 h2
    have hlen : (v.flatMap C.enc).length = v.length * C.sz := by
      clear hv h1 h2
      induction v with
      | nil => simp
      | cons c cs ih => simp [ih, Nat.add_mul, C.enc_length]; omega
    have h3 : k * C.sz + C.sz ≤ v.length * C.sz := by
      have := Nat.mul_le_mul_right C.sz h2
      rw [Nat.succ_mul] at this
      exact this
    simp only [List.getElem_map, List.getElem_range]
    rw [readBytes_writeBytes_sub _ _ _ _ _ (by rw [hlen]; exact h3),
      flatMap_sub _ C.sz C.enc_length _ _ h2, C.dec_enc]

theorem flatMap_enc_length (v : List V) : (v.flatMap C.enc).length = v.length * C.sz := by
  induction v with
  | nil => simp
  | cons c cs ih => simp [ih, Nat.add_mul, C.enc_length]; omega

theorem setVec_frame (b : Bytes) (a : Nat) (v : List V) (x : Nat)
    (h : x < a + L.offV ∨ a + L.offV + v.length * C.sz ≤ x) :
    setVec L C b a v x = b x := by
  unfold setVec
  apply writeBytes_outside
  rw [flatMap_enc_length]
  exact h

theorem norm_setNorm (b : Bytes) (a : Nat) (v : V) : norm L C (setNorm L C b a v) a = v := by
  unfold norm setNorm
  have := readBytes_writeBytes_same b (a + L.szIX) (C.enc v)
  rw [C.enc_length] at this
  rw [this, C.dec_enc]

theorem setNorm_frame (b : Bytes) (a : Nat) (v : V) (x : Nat)
    (h : x < a + L.szIX ∨ a + L.szIX + C.sz ≤ x) : setNorm L C b a v x = b x := by
  unfold setNorm
  apply writeBytes_outside
  rw [C.enc_length]; exact h

theorem norm_congr {b b' : Bytes} {a a' : Nat}
    (h : ∀ j, j < C.sz → b (a + L.szIX + j) = b' (a' + L.szIX + j)) :
    norm L C b a = norm L C b' a' := by
  unfold norm; rw [readBytes_congr h]

theorem dotFactor_setDotFactor (b : Bytes) (a : Nat) (v : V) :
    dotFactor L C (setDotFactor L C b a v) a = v := by
  unfold dotFactor setDotFactor
  have := readBytes_writeBytes_same b (a + L.offV - C.sz) (C.enc v)
  rw [C.enc_length] at this
  rw [this, C.dec_enc]

theorem setDotFactor_frame (b : Bytes) (a : Nat) (v : V) (x : Nat) (hsz : C.sz ≤ L.offV)
    (h : x < a + L.offV - C.sz ∨ a + L.offV ≤ x) : setDotFactor L C b a v x = b x := by
  unfold setDotFactor
  apply writeBytes_outside
  rw [C.enc_length]; omega

theorem dotFactor_congr {b b' : Bytes} {a a' : Nat}
    (h : ∀ j, j < C.sz → b (a + L.offV - C.sz + j) = b' (a' + L.offV - C.sz + j)) :
    dotFactor L C b a = dotFactor L C b' a' := by
  unfold dotFactor; rw [readBytes_congr h]

theorem copyNode_inside (dst : Bytes) (da : Nat) (src : Bytes) (sa n j : Nat) (h : j < n) :
    copyNode dst da src sa n (da + j) = src (sa + j) := copy_inside _ _ _ _ _ _ h

theorem copyNode_frame (dst : Bytes) (da : Nat) (src : Bytes) (sa n x : Nat)
    (h : x < da ∨ da + n ≤ x) : copyNode dst da src sa n x = dst x := by
  unfold copyNode
  apply writeBytes_outside
  simpa using h

end Node
end Annoy
