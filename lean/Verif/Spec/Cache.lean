import Mathlib.Tactic.TypeStar

/-!
# Specification of transparent caching

A history of a weight quantiser without any cache: all that matters to a call is the current weight and whether quantisation is on.
-/

namespace Brevitas.Spec

/-- The parts of a history that may matter to the caller. `other` is everything that only concerns modes and caches. -/
inductive WeightEvent (W : Type*) where
  | weight (w : W)
  | enable (b : Bool)
  | call
  | other

/-- Results of the calls of a history computed from scratch: `quant w` of the current weight, or `view w` while quantisation is off. -/
def fromScratch {W V M : Type*} (quant : W → V × M) (view : W → V) : W → Bool → List (WeightEvent W) → List (V × Option M)
  | _, _, [] => []
  | _, e, .weight w' :: evs => fromScratch quant view w' e evs
  | w, _, .enable b :: evs => fromScratch quant view w b evs
  | w, e, .call :: evs =>
    (if e then ((quant w).1, some (quant w).2) else (view w, none)) :: fromScratch quant view w e evs
  | w, e, .other :: evs => fromScratch quant view w e evs

end Brevitas.Spec
