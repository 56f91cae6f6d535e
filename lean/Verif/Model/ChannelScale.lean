import Verif.Spec.Broadcast
import Verif.Model.Stats
import Verif.Model.Scaling

/-!
# Scale factors from the statistics of the weights

`src/brevitas/quant/solver/weight.py`, `quant/solver/common.py`, `quant/solver/parameter.py` (which shapes are used) and
`src/brevitas/core/stats/stats_wrapper.py`, `core/stats/view_wrapper.py`, `core/function_wrapper/shape.py` (what is computed from them).
`none` is an exception.  The statistic itself is a parameter: a function from the list of the elements that share a scale.
-/

namespace Brevitas

namespace ChannelScale

open NdTensor

variable {K : Type*} [Zero K]

/-- What the weight quantiser reads of a layer: `weight`, `out_channels` and `output_channel_dim` (quant/solver/weight.py:41-45, 86-90). -/
structure Layer (K : Type*) where
  weight : NdTensor K
  outChannels : ℕ
  dim : ℕ

/-- `QuantConv1d`, `QuantConv2d`, `QuantConv3d` and, with no kernel dimension and one group, `QuantLinear`: weight of shape
`(out, in / groups, *kernel)`, `output_channel_dim` 0 (nn/quant_conv.py:82-87, 170-175, 259-264; nn/quant_linear.py:53-55). -/
def convLayer (outCh inCh groups : ℕ) (kernel : List ℕ) (data : List ℕ → K) : Layer K := ⟨⟨outCh :: inCh / groups :: kernel, data⟩, outCh, 0⟩

/-- `QuantConvTranspose1d`, `QuantConvTranspose2d`, `QuantConvTranspose3d`: weight of shape `(in, out / groups, *kernel)`, `output_channel_dim` 1
(nn/quant_convtranspose.py:81-83, 176-178, 271-273). -/
def transposedLayer (outCh inCh groups : ℕ) (kernel : List ℕ) (data : List ℕ → K) : Layer K := ⟨⟨inCh :: outCh / groups :: kernel, data⟩, outCh, 1⟩

/-- `ScalingPerOutputType.TENSOR` and `ScalingPerOutputType.CHANNEL` (groups are modelled in `Verif.Model.Shape`). -/
inductive PerOutput where
  | tensor
  | channel
  deriving DecidableEq

/-- `over_tensor` and `OverTensorView.forward` (function/shape.py:24-38, core/function_wrapper/shape.py:48-50): `x.reshape(-1)`. -/
def overTensorView (t : NdTensor K) : Option (NdTensor K) := t.reshape [t.shape.prod]

/-- `permute_dims` (quant/solver/weight.py:74-83): nothing for dimension 0, else the exchange of that dimension and the first. -/
def permuteDims (rank dim : ℕ) : Option (List ℕ) := if dim ≠ 0 then some (swapDims rank 0 dim) else none

/-- `over_output_channels` and `OverOutputChannelView.forward` (function/shape.py:42-57, core/function_wrapper/shape.py:65-76), with
`PermuteDims.forward` (core/function_wrapper/shape.py:29-30): `y.reshape(y.shape[0], -1)` of the permuted tensor.  The size for `-1` can only be found
when there is at least one channel. -/
def overOutputChannelView (dims : Option (List ℕ)) (t : NdTensor K) : Option (NdTensor K) := do
  let y ← match dims with
    | some p => t.permute p
    | none => some t
  match y.shape with
  | [] => none
  | n :: rest => if n = 0 then none else y.reshape [n, (n :: rest).prod / n]

/-- `_ViewParameterWrapper.forward` of the first tracked parameter, then `_ViewCatParameterWrapper.forward` of each other one
(core/stats/stats_wrapper.py:112-116, core/stats/view_wrapper.py:22-23, 52-53): each is put in front of those before. -/
def statsInput (view : NdTensor K → Option (NdTensor K)) (concatDim : ℤ) : List (NdTensor K) → Option (NdTensor K)
  | [] => none
  | first :: extra => do
    let x ← view first
    extra.foldlM (fun x p => do
      let v ← view p
      NdTensor.cat concatDim [v, x]) x

/-- Row `i` of a tensor of rank 2. -/
def row (t : NdTensor K) (i : ℕ) : List K := (List.range (t.shape.getD 1 0)).map fun j => t.data [i, j]

/-- A statistic with `stats_reduce_dim = 1` and `keepdim = False` on a tensor of rank 2 (core/stats/stats_op.py, e.g. 169-174): the statistic of every
row.  It raises when it does for one row. -/
def reduceRows (stat : List K → Option K) (t : NdTensor K) : Option (NdTensor K) :=
  if ∀ i ∈ List.range (t.shape.getD 0 0), (stat (row t i)).isSome then
    some ⟨[t.shape.getD 0 0], fun idx => (stat (row t (idx.getD 0 0))).getD 0⟩
  else none

/-- A statistic with `stats_reduce_dim = None` on a tensor of rank 1 (core/stats/stats_op.py, e.g. 169-174): one value. -/
def reduceAll (stat : List K → Option K) (t : NdTensor K) : Option (NdTensor K) :=
  (stat ((List.range (t.shape.getD 0 0)).map fun j => t.data [j])).map fun v => ⟨[], fun _ => v⟩

/-- `scaling_shape` (quant/solver/parameter.py:114-118) with `scaling_per_output_channel_shape` (quant/solver/weight.py:55-58). -/
def scalingShape (per : PerOutput) (rank dim outChannels : ℕ) : List ℕ :=
  match per with
  | .tensor => []
  | .channel => (List.replicate rank 1).set dim outChannels

/-- The statistic of the tracked weights in the shape of the scale factor: `_ParameterListStats.forward` and `_Stats.forward`
(core/stats/stats_wrapper.py:31-34, 112-118), with the solver choosing `stats_reduce_dim` (quant/solver/common.py:175-179), the view (203-207), the
dimension of concatenation (quant/solver/weight.py:67-71) and the shape.  The assertions on layers sharing a quantiser are those of
quant/solver/weight.py:41-52, 77 and 88, evaluated when what they guard is needed. `StatsOp.MAX_AVE` is `maxAveStats`. -/
def weightStats (stat : List K → Option K) (per : PerOutput) (layers : List (Layer K)) : Option (NdTensor K) :=
  match layers with
  | [] => none
  | first :: _ =>
    match per with
    | .tensor => do
      let x ← statsInput overTensorView 0 (layers.map (·.weight))
      let s ← reduceAll stat x
      s.reshape (scalingShape .tensor first.weight.shape.length first.dim first.outChannels)
    | .channel =>
      if (∀ m ∈ layers, m.outChannels = first.outChannels) ∧ (∀ m ∈ layers, m.weight.shape.length = first.weight.shape.length) ∧
          (∀ m ∈ layers, m.dim = first.dim) then do
        let x ← statsInput (overOutputChannelView (permuteDims first.weight.shape.length first.dim)) 1 (layers.map (·.weight))
        let s ← reduceRows stat x
        s.reshape (scalingShape .channel first.weight.shape.length first.dim first.outChannels)
      else none

end ChannelScale

namespace ChannelScale

open NdTensor

variable {K : Type*} [Field K] [LinearOrder K] [IsStrictOrderedRing K] [FloorRing K]

/-- `AbsMaxAve.forward` on a tensor of rank 2 (core/stats/stats_op.py:212-213): `mean(max(|x|, dim=1)[0])`. -/
def reduceMaxAve (t : NdTensor K) : Option (NdTensor K) :=
  (absMaxAve ((List.range (t.shape.getD 0 0)).map (row t))).map fun v => ⟨[], fun _ => v⟩

/-- One scale for the tensor with `StatsOp.MAX_AVE`: the view is over the output channels and the reduction along dimension 1
(quant/solver/common.py:176-177, 204-205), but the concatenation along dimension 0, chosen from `scaling_per_output` only
(quant/solver/weight.py:67-69). -/
def maxAveStats (layers : List (Layer K)) : Option (NdTensor K) :=
  match layers with
  | [] => none
  | first :: _ =>
    if (∀ m ∈ layers, m.dim = first.dim) ∧ (first.dim ≠ 0 → ∀ m ∈ layers, m.weight.shape.length = first.weight.shape.length) then do
      let x ← statsInput (overOutputChannelView (permuteDims first.weight.shape.length first.dim)) 0 (layers.map (·.weight))
      let s ← reduceMaxAve x
      s.reshape (scalingShape .tensor first.weight.shape.length first.dim first.outChannels)
    else none

/-- A symmetric integer weight quantiser with a scale per channel from the largest absolute value (`Int8WeightPerChannelFloat`,
src/brevitas/quant/scaled_int.py, and the like): `StatsFromParameterScaling.forward` (core/scaling/runtime.py:55-60) on the statistic above,
element by element, then `IntQuant.forward` with the scale broadcast to the weight.  Quantised weight and scale. -/
def perChannelWeightQuant (c : IntQuantCfg K) (bw : ℕ) (scalingMinVal : Option K) (layers : List (Layer K)) (weight : NdTensor K) :
    Option (NdTensor K × NdTensor K) := do
  let st ← weightStats absMax .channel layers
  let scale := st.map fun a => statsScalingFp scalingMinVal a (intScaling c.signed c.narrow bw)
  let q ← bcOp (fun x s => c.forward s 0 bw x) weight scale
  return (q, scale)

end ChannelScale

end Brevitas
