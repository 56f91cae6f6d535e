import Mathlib.Data.List.Basic

/-!
# Optimising the layers of a network one group after the other

The mathematical procedure that greedy layerwise quantisation follows. Nothing here comes from Brevitas.
-/

namespace Brevitas.Spec

/-- The groups of `groups` one after the other, each with its own calibration batches: every layer of a group gets a new weight from its
old one and from the inputs it receives on the batches, in the network as it is before the group. -/
def sequential {N X I W : Type*} [DecidableEq N] (inputs : N → (N → W) → X → List I) (optimise : N → List I → W → W) :
    List (List N) → List (List X) → (N → W) → (N → W)
  | g :: groups, batches :: rounds, w =>
    sequential inputs optimise groups rounds fun n => if n ∈ g then optimise n (batches.flatMap (inputs n w)) (w n) else w n
  | _, _, w => w

end Brevitas.Spec
