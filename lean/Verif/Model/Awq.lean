import Mathlib.Algebra.Order.Field.Basic
import Mathlib.Algebra.BigOperators.Group.Finset.Basic
import Mathlib.Logic.Function.Basic

/-!
# AWQ scaling (`src/brevitas_examples/llm/llm_quant/awq/auto_scale.py`)

A decoder layer is a map from the names of its submodules to linear layers and norms; `none` is an exception.
-/

namespace Brevitas.Awq

open Finset

variable {K : Type*} [Field K]

/-- `nn.Linear`. -/
structure Linear (K : Type*) where
  outFeatures : ℕ
  inFeatures : ℕ
  weight : ℕ → ℕ → K
  bias : Option (ℕ → K) := none

/-- `nn.LayerNorm` or `LlamaRMSNorm`: a normalisation, which may be any function, multiplied by a weight, and a bias for the former. -/
structure Norm (K : Type*) where
  dim : ℕ
  core : (ℕ → K) → ℕ → K
  weight : ℕ → K
  bias : Option (ℕ → K) := none

/-- A submodule. -/
inductive Op (K : Type*)
  | linear (l : Linear K)
  | norm (n : Norm K)

/-- The scales found for one group of layers: a vector. -/
structure Scales (K : Type*) where
  len : ℕ
  val : ℕ → K

/-- `ln.weight.div_(scales)` and `ln.bias.div_(scales)`, auto_scale.py:65-67. -/
def Norm.div (n : Norm K) (s : Scales K) : Norm K :=
  { n with weight := fun c => n.weight c / s.val c, bias := n.bias.map fun b c => b c / s.val c }

/-- `fc1.weight.div_(scales.view(-1, 1))` and `fc1.bias.div_(scales.view(-1))`, auto_scale.py:87-89. -/
def Linear.divOut (l : Linear K) (s : Scales K) : Linear K :=
  { l with weight := fun o i => l.weight o i / s.val o, bias := l.bias.map fun b o => b o / s.val o }

/-- `fc.weight.mul_(scales.view(1, -1))`, auto_scale.py:70 and 91. -/
def Linear.mulIn (l : Linear K) (s : Scales K) : Linear K := { l with weight := fun o i => l.weight o i * s.val i }

section Block
variable {N : Type*} [DecidableEq N]

/-- The loop over the layers of `scale_ln_fcs`, auto_scale.py:69-70: shapes must agree (a vector of one element, which would be broadcast, is not
considered). -/
def mulLayers (ops : N → Op K) (s : Scales K) : List N → Option (N → Op K)
  | [] => some ops
  | name :: names =>
    match ops name with
    | .linear l => if l.inFeatures = s.len then mulLayers (Function.update ops name (.linear (l.mulIn s))) s names else none
    | .norm _ => none

/-- One entry of the list in `apply_scale`, auto_scale.py:256-266: `scale_fc_fc` (80-97) or `scale_ln_fcs` (59-77).  The assertions
that no parameter is NaN are not modelled. -/
def applyEntry (ops : N → Op K) (prev : N) (layers : List N) (s : Scales K) : Option (N → Op K) :=
  match ops prev with
  | .linear fc1 =>
    match layers with
    | [name] =>
      match ops name with
      | .linear fc2 =>
        if fc1.outFeatures = fc2.inFeatures ∧ fc1.outFeatures = s.len then
          mulLayers (Function.update ops prev (.linear (fc1.divOut s))) s [name]
        else none
      | .norm _ => none
    | _ => none
  | .norm ln => if ln.dim = s.len then mulLayers (Function.update ops prev (.norm (ln.div s))) s layers else none

/-- The inputs recorded for the layers divided by the scales, auto_scale.py:269-272. -/
def divFeats (feats : N → ℕ → ℕ → K) (s : Scales K) : List N → N → ℕ → ℕ → K
  | [] => feats
  | name :: names => divFeats (Function.update feats name fun t c => feats name t c / s.val c) s names

/-- `apply_scale`, auto_scale.py:255-272. -/
def applyScale (ops : N → Op K) (feats : N → ℕ → ℕ → K) : List (N × List N × Scales K) → Option ((N → Op K) × (N → ℕ → ℕ → K))
  | [] => some (ops, feats)
  | (prev, layers, s) :: entries => (applyEntry ops prev layers s).bind fun ops => applyScale ops (divFeats feats s layers) entries

end Block

/-- The submodules of `OPTDecoderLayer` that are scaled. -/
inductive OptName | attnNorm | q | k | v | out | finalNorm | fc1 | fc2
  deriving DecidableEq

/-- The submodules of `LlamaDecoderLayer` that are scaled. -/
inductive LlamaName | inputNorm | q | k | v | o | postNorm | gate | up | down
  deriving DecidableEq

/-- The list returned by `auto_scale_block` for an `OPTDecoderLayer`, auto_scale.py:184-214, for the scales found in its four searches. -/
def optScales (s1 s2 s3 s4 : Scales K) : List (OptName × List OptName × Scales K) :=
  [(.attnNorm, [.q, .k, .v], s1), (.v, [.out], s2), (.finalNorm, [.fc1], s3), (.fc1, [.fc2], s4)]

/-- The list returned by `auto_scale_block` for a `LlamaDecoderLayer`, auto_scale.py:216-247. -/
def llamaScales (s1 s2 s3 s4 : Scales K) : List (LlamaName × List LlamaName × Scales K) :=
  [(.inputNorm, [.q, .k, .v], s1), (.v, [.o], s2), (.postNorm, [.gate, .up], s3), (.up, [.down], s4)]

end Brevitas.Awq
