import Verif.Model.SubTensor

/-!
# What is expected of a layer quantised by slices

The quantised value of an element of the whole weight, and the quantisers for which slicing is meant to make no difference.
-/

set_option linter.unusedSectionVars false

namespace Brevitas

namespace SubTensor

open NdTensor

variable {K : Type*} [Field K] [LinearOrder K] [IsStrictOrderedRing K] [FloorRing K]

/-- The rounding of a number that is element `src` of the whole weight divided by the scale. -/
def Rounding.at (r : Rounding K) (training : Bool) (src : List ℕ) (v : K) : K :=
  match r with
  | .plain f => f v
  | .learned value impl _ => torchFloor v + if training then impl (value.data src) else if 0 < value.data src then 1 else 0

/-- The quantised value of element `src` of a layer's whole weight. -/
def Quantizer.at (q : Quantizer K) (training : Bool) (w : NdTensor K) (src : List ℕ) : K :=
  let read (s : Source K) : K := (s.eval w w).data (bcIndex (s.eval w w).shape src)
  (tensorClamp (q.rounding.at training src (w.data src / read q.preScale + read q.preZeroPoint))
    (minInt q.signed q.narrow q.bitWidth) (maxInt q.signed q.narrow q.bitWidth) - read q.zeroPoint) * read q.scale

/-- A scale or zero point that does not depend on the tensor passed, broadcasts to weights of shape `V` and varies along no dimension that is sliced. -/
def Source.Allows (s : Source K) (V : List ℕ) (sl : Slices) : Prop :=
  match s with
  | .const t => Broadcasts t.shape V ∧ KeepsWhole V.length t.shape sl
  | .tracked f => ∀ w : NdTensor K, w.shape = V → Broadcasts (f w).shape V ∧ KeepsWhole V.length (f w).shape sl
  | .argument _ => False

/-- A rounding for weights of shape `V`: a learned one has a parameter for each of them. -/
def Rounding.Fits (r : Rounding K) (V : List ℕ) : Prop :=
  match r with
  | .plain _ => True
  | .learned value _ _ => value.shape = V

/-- A quantiser for weights of shape `V` that may be asked for slice `sl`. -/
structure Quantizer.Allows (q : Quantizer K) (V : List ℕ) (sl : Slices) : Prop where
  rank : V ≠ []
  slices : sl.length ≤ V.length
  rounding : q.rounding.Fits V
  preScale : q.preScale.Allows V sl
  preZeroPoint : q.preZeroPoint.Allows V sl
  scale : q.scale.Allows V sl
  zeroPoint : q.zeroPoint.Allows V sl

/-- No slice is pending, and the list of modules to tell about slices, if it was made, is that of the quantiser in use. -/
structure Steady (l : Layer K) : Prop where
  slicers : ∀ m ∈ l.quant.slicerModules, l.slicers m = [none]
  modules : l.cachedModules = none ∨ l.cachedModules = some l.quant.slicerModules

/-- The weight of the layer, and the copy of it if any, have shape `V`. -/
structure HasShape (l : Layer K) (V : List ℕ) : Prop where
  weight : l.weight.shape = V
  orig : ∀ w, l.weightOrig = some w → w.shape = V

end SubTensor

end Brevitas
