import Verif.Spec.ScaleBias

/-!
# Scale and bias layers, and loading batch norms into them

`src/brevitas/nn/quant_scale_bias.py`, `src/brevitas/nn/quant_bn.py` and `mul_add_from_bn` of `src/brevitas/nn/utils.py`. Shapes and
broadcasting are modelled; quantisers are functions; QuantTensor metadata are not modelled here. `none` stands for an exception.
-/

namespace Brevitas.ScaleBias

open Brevitas NdTensor

/-- `mul_add_from_bn`, nn/utils.py:10-14. Parameters of different lengths, which would be broadcast or raise, are not considered. -/
noncomputable def mulAddFromBn (bnMean bnVar : List ℝ) (bnEps : ℝ) (bnWeight bnBias : List ℝ) : List ℝ × List ℝ :=
  let denom := bnVar.map fun v => Real.sqrt (v + bnEps)
  let mulFactor := List.zipWith (fun w d => w / d) bnWeight denom
  let addFactor := List.zipWith (fun a b => a + b) (List.zipWith (fun m f => -m * f) bnMean mulFactor) bnBias
  (mulFactor, addFactor)

/-- The state of a `QuantScaleBias`, quant_scale_bias.py:27-60, and the `eps` of quant_bn.py:69 and 93. `runtimeShape` is a view shape, `none`
standing for the entry -1. -/
structure Layer where
  weight : List ℝ
  bias : Option (List ℝ)
  runtimeShape : List (Option ℕ)
  eps : ℝ

/-- `ScaleBias.__init__` with its default `runtime_shape`, quant_scale_bias.py:29-34, as called by `QuantScaleBias.__init__`, quant_scale_bias.py:57. -/
def initQuant (numFeatures : ℕ) (bias : Bool) (eps : ℝ) : Layer :=
  ⟨List.replicate numFeatures 1, if bias then some (List.replicate numFeatures 0) else none, [some 1, none, some 1, some 1], eps⟩

/-- `BatchNorm1dToQuantScaleBias.__init__`, quant_bn.py:48-69: `runtime_shape=(1, -1, 1)` is one of the keyword arguments of
`QuantScaleBias.__init__`, which hands them to the quantisers (mixin/utils.py:5-6 keeps those that start with `weight_`, `bias_`, `input_` or
`output_`). -/
def initBn1d (numFeatures : ℕ) (eps : ℝ) : Layer := initQuant numFeatures true eps

/-- `BatchNorm2dToQuantScaleBias.__init__`, quant_bn.py:74-93. -/
def initBn2d (numFeatures : ℕ) (eps : ℝ) : Layer := initQuant numFeatures true eps

/-- `Tensor.view` of a vector with a shape whose entries are one or -1. -/
def viewVec (shape : List (Option ℕ)) (v : List ℝ) : NdTensor ℝ :=
  ⟨shape.map fun d => d.getD v.length, fun idx => v.getD (Spec.ravel (shape.map fun d => d.getD v.length) idx) 0⟩

/-- `QuantScaleBias.forward`, quant_scale_bias.py:78-97 and `forward_impl`, quant_layer.py:127-154, with the quantisers of the input, the
weight, the bias and the output. `quant_bias.view` of a missing bias raises. The in-place addition raises if it would change the shape. -/
noncomputable def Layer.forward (qIn qOut : ℝ → ℝ) (qWeight qBias : List ℝ → List ℝ) (L : Layer) (x : NdTensor ℝ) : Option (NdTensor ℝ) :=
  match L.bias with
  | none => none
  | some b =>
    (bcOp (fun u v => u * v) (x.map qIn) (viewVec L.runtimeShape (qWeight L.weight))).bind fun out =>
      (bcOp (fun u v => u + v) out (viewVec L.runtimeShape (qBias b))).bind fun out' =>
        if out'.shape = out.shape then some (out'.map qOut) else none

/-- `ScaleBias.forward`, quant_scale_bias.py:36-40: `if self.bias:` converts the bias to a truth value, which raises unless it has one element. -/
noncomputable def Layer.forwardFloat (L : Layer) (x : NdTensor ℝ) : Option (NdTensor ℝ) :=
  (bcOp (fun u v => u * v) x (viewVec L.runtimeShape L.weight)).bind fun out =>
    match L.bias with
    | none => some out
    | some b =>
      if b.length ≠ 1 then none
      else if b.getD 0 0 = 0 then some out
      else (bcOp (fun u v => u + v) out (viewVec L.runtimeShape b)).bind fun out' => if out'.shape = out.shape then some out' else none

/-- The entries of a state dict that start with the prefix of the layer. -/
structure StateDict where
  weight : Option (List ℝ)
  bias : Option (List ℝ)
  runningMean : Option (List ℝ)
  runningVar : Option (List ℝ)
  numBatchesTracked : Option ℕ

/-- The layer, the missing and the unexpected keys after loading. -/
structure Loaded where
  layer : Layer
  missing : List String
  unexpected : List String

/-- `torch.nn.Module._load_from_state_dict` of the parameter `weight`: its new value and whether it is missing. -/
def loadWeight (sd : StateDict) (L : Layer) : Option (List ℝ × Bool) :=
  match sd.weight with
  | none => some (L.weight, true)
  | some w => if w.length = L.weight.length then some (w, false) else none

/-- `torch.nn.Module._load_from_state_dict` of the parameter `bias`: its new value, whether it is missing and whether it is unexpected. -/
def loadBias (sd : StateDict) (L : Layer) : Option (Option (List ℝ) × Bool × Bool) :=
  match L.bias, sd.bias with
  | none, none => some (none, false, false)
  | none, some _ => some (none, false, true)
  | some b, none => some (some b, true, false)
  | some b, some b' => if b'.length = b.length then some (some b', false, false) else none

/-- `torch.nn.Module._load_from_state_dict`: a present entry of the right size is copied, one of another size is an error, an absent one is
missing; entries of other names are unexpected. The lists are only filled when strict. -/
def loadBase (strict : Bool) (sd : StateDict) (L : Layer) : Option Loaded :=
  (loadWeight sd L).bind fun rw => (loadBias sd L).map fun rb =>
    ⟨{ L with weight := rw.1, bias := rb.1 },
      (if strict && rw.2 then ["weight"] else []) ++ (if strict && rb.2.1 then ["bias"] else []),
      (if strict && rb.2.2 then ["bias"] else []) ++ (if strict && sd.runningMean.isSome then ["running_mean"] else []) ++
        (if strict && sd.runningVar.isSome then ["running_var"] else []) ++
        (if strict && sd.numBatchesTracked.isSome then ["num_batches_tracked"] else [])⟩

/-- The first part of `_load_from_state_dict`, quant_bn.py:21-38: with running statistics the parameters are set (whatever their size) and the
entries are deleted; an absent one raises. -/
noncomputable def absorb (sd : StateDict) (L : Layer) : Option (StateDict × Layer) :=
  match sd.runningMean, sd.runningVar with
  | some m, some v =>
    match sd.bias, sd.weight, sd.numBatchesTracked with
    | some b, some w, some _ =>
      let p := mulAddFromBn m v L.eps w b
      some (⟨none, none, none, none, none⟩, { L with weight := p.1, bias := some p.2 })
    | _, _, _ => none
  | _, _ => some (sd, L)

/-- `_BatchNormToQuantScaleBias._load_from_state_dict`, quant_bn.py:19-45. -/
noncomputable def load (ignoreMissingKeys strict : Bool) (sd : StateDict) (L : Layer) : Option Loaded :=
  (absorb sd L).bind fun p =>
    (loadBase strict p.1 p.2).map fun r =>
      let missing := if ignoreMissingKeys then (r.missing.erase "bias").erase "weight" else r.missing
      ⟨r.layer, missing, r.unexpected.erase "num_batches_tracked"⟩

/-- `load_state_dict`: with `strict`, missing or unexpected keys raise. -/
noncomputable def loadStateDict (ignoreMissingKeys strict : Bool) (sd : StateDict) (L : Layer) : Option Layer :=
  (load ignoreMissingKeys strict sd L).bind fun r =>
    if strict = true ∧ (r.missing ≠ [] ∨ r.unexpected ≠ []) then none else some r.layer

/-- The state dict of a batch norm with affine parameters and running statistics. -/
def ofBatchNorm (B : Spec.BnParams) (tracked : ℕ) : StateDict := ⟨some B.weight, some B.bias, some B.mean, some B.var, some tracked⟩

/-- The state dict of the layer itself. -/
def Layer.stateDict (L : Layer) : StateDict := ⟨some L.weight, L.bias, none, none, none⟩

end Brevitas.ScaleBias
