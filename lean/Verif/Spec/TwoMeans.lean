import Verif.Model.Vec
import Verif.Model.Rng
/-!
# Specification: two running means

What `TwoMeans` is meant to do, on vectors: two weighted means see a sequence of vectors, each vector is divided by its length and joins the mean
whose weighted distance is smaller.  No nodes, no bytes, no cached norms.
-/
namespace Annoy
namespace Means

section
variable (N : Num) (dist : List N.V → List N.V → N.V)

/-- A mean of `weight` vectors. -/
structure Mean where
  vec : List N.V
  weight : N.W

variable {N}

/-- The vector divided by its length. -/
def unit (v : List N.V) : List N.V := v.map fun x => N.div x (N.sqrt (Vec.dot N v v))

/-- One more vector: the mean times its weight, plus the vector, over the weight plus one. -/
def Mean.join (m : Mean N) (u : List N.V) : Mean N where
  vec := List.zipWith (fun a x => N.div (N.add (N.mul a (N.ofW m.weight)) x) (N.ofW (N.addW m.weight N.oneW))) m.vec u
  weight := N.addW m.weight N.oneW

/-- The distance of a vector, counted `weight` times. -/
def Mean.far (m : Mean N) (v : List N.V) : N.W := N.mulW m.weight (N.toW (dist m.vec v))

/-- The pair of means sees a vector: a vector without length changes nothing, nor does a tie. -/
def see (s : Mean N × Mean N) (v : List N.V) : Mean N × Mean N :=
  if N.lt N.zero (N.sqrt (Vec.dot N v v)) = true then
    if N.ltW (s.1.far dist v) (s.2.far dist v) = true then (s.1.join (unit v), s.2)
    else if N.ltW (s.2.far dist v) (s.1.far dist v) = true then (s.1, s.2.join (unit v))
    else s
  else s

/-- The two means after a sequence of vectors, from the start points `p` and `q`. -/
def after (p q : List N.V) (seen : List (List N.V)) : Mean N × Mean N :=
  seen.foldl (see dist) (⟨p, N.oneW⟩, ⟨q, N.oneW⟩)

/-- The normal vector of the split: the difference of the means, of length 1. -/
def normal (p q : List N.V) (seen : List (List N.V)) : List N.V :=
  Vec.normalize N (List.zipWith N.sub (after dist p q seen).1.vec (after dist p q seen).2.vec)

end

/-- `ks` are the numbers a generator in state `r` gives when asked again and again for a number below `n`; it ends in state `r'`. -/
def Drawn (R : Rng) (n : Nat) : R.σ → List Nat → R.σ → Prop
  | r, [], r' => r' = r
  | r, k :: ks, r' => ∃ r1, R.nextIndex r n = .ok (k, r1) ∧ Drawn R n r1 ks r'

end Means
end Annoy
