import Verif.Spec.Int

/-!
# Specification of integer quant tensors

Nothing here refers to the model. A tensor with codes `ns`, scale `s` and zero point `z` stands for the values `(n - z) * s`.
-/

namespace Spec

variable {K : Type*} [Field K] [LinearOrder K] [IsStrictOrderedRing K] [FloorRing K]

/-- The values denoted by a list of integer codes. -/
def denote (s z : K) (ns : List ℤ) : List K := ns.map fun n : ℤ => ((n : K) - z) * s

/-- All codes belong to the (full range) container. -/
def AllCodes (signed : Bool) (b : ℕ) (ns : List ℤ) : Prop := ∀ n ∈ ns, IsCode signed false b n

end Spec
