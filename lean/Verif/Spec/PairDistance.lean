import Verif.Spec.Unfold

/-!
# The distance between the outputs of a layer and of its quantised version, each on its own input

Nothing here refers to Brevitas.
-/

namespace Brevitas

namespace NdTensor

variable {K : Type*} [CommRing K]

/-- The squared distance between the output of the layer `f` with weight `w` on the input `x.2` and with weight `q` on the input `x.1`. -/
def pairDistance (f : NdTensor K → NdTensor K → Option (NdTensor K)) (w q : NdTensor K) (x : NdTensor K × NdTensor K) : Option K :=
  (f x.2 w).bind fun y => (f x.1 q).map fun y' => distSq y y'

/-- `a G bᵀ` for rows `a` and `b` of `n` numbers. -/
def bilinForm (n : ℕ) (G : ℕ → ℕ → K) (a b : ℕ → K) : K := ((List.range n).map fun i => ((List.range n).map fun j => a i * G i j * b j).sum).sum

end NdTensor

end Brevitas
