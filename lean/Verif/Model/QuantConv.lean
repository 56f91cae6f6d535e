import Verif.Spec.LayerFn
import Verif.Model.ShapedTensor
import Verif.Model.Accum

/-!
# Layers on quant tensors with a shape (`src/brevitas/quant_tensor/int_torch_handler.py`)

`quant_layer` for `F.linear`, `F.conv1d/2d/3d` and `F.conv_transpose1d/2d/3d`, when input and weight are integer quant tensors. `Accum.lean` has `quant_layer` for
linear layers on rows of numbers; here all the tensors have shapes, so that the views and broadcasts of scales, zero points and biases are part of the model.
`none` is an exception.  Convolutions are those with the padding mode `'zeros'` and integer paddings.
-/

namespace Brevitas

namespace QuantConv

open NdTensor

variable {K : Type*} [Field K] [LinearOrder K] [IsStrictOrderedRing K] [FloorRing K]

/-- The functions `fn` handed to `quant_layer` (int_torch_handler.py:33-72), with the remaining arguments. -/
inductive LayerFn where
  | linear
  | conv (stride padding dilation : List ℕ) (groups : ℕ)
  | convTranspose (stride padding outputPadding dilation : List ℕ) (groups : ℕ)

/-- `fn(x, w, bias, *args, **kwargs)` on plain tensors (torch). -/
def LayerFn.apply {R : Type*} [CommRing R] : LayerFn → NdTensor R → NdTensor R → Option (List ℕ → R) → Option (NdTensor R)
  | .linear, x, w, b => linearNd x w b
  | .conv stride padding dilation groups, x, w, b => convPadNd stride padding dilation groups x w b
  | .convTranspose stride padding outputPadding dilation groups, x, w, b => convTransposeNd stride padding outputPadding dilation groups x w b

/-- `FN_ACC_BITWIDTH_MAPPING[fn]` (int_torch_handler.py:283-291) applied to the bit widths, the shape of the weight and the remaining arguments. -/
def LayerFn.maxAccBitWidth : LayerFn → ℕ → ℕ → List ℕ → Option ℕ
  | .linear, bi, bw, shape => maxAccBitWidthLinear bi bw shape
  | .conv .., bi, bw, shape => maxAccBitWidthConv bi bw shape
  | .convTranspose stride _ _ _ _, bi, bw, shape => maxAccBitWidthConvTranspose bi bw shape stride

/-- `channel_dim = -1 if fn == F.linear else 1` (int_torch_handler.py:229) for an input of the given rank. -/
def LayerFn.channelDim (rank : ℕ) : LayerFn → ℕ
  | .linear => rank - 1
  | _ => 1

/-- `t.view(compute_channel_view_shape(inp, channel_dim))`, torch_utils.py:88-91, for an input of rank `rank`: all the elements along one dimension. -/
def channelView (rank dim : ℕ) (t : NdTensor K) : NdTensor K :=
  ⟨(List.replicate rank 1).set dim t.shape.prod, fun idx => t.data (fromPosition t.shape (idx.getD dim 0))⟩

/-- `quant_output_scale_impl`, int_torch_handler.py:227-237. -/
def outputScale (fn : LayerFn) (rank : ℕ) (inputScale weightScale : NdTensor K) : Option (NdTensor K) :=
  let dim := fn.channelDim rank
  let inputScale := if inputScale.shape.length = 0 then channelView rank dim inputScale else inputScale
  bcOp (fun a b => a * b) (channelView rank dim weightScale) inputScale

/-- The bias argument: absent, a float tensor, or an integer quant tensor. -/
inductive BiasTensor (K : Type*) where
  | none
  | float (value : NdTensor K)
  | int (q : ShapedQT K)

/-- `_unpack_quant_tensor(bias)`, if there is a bias. -/
def BiasTensor.value : BiasTensor K → Option (NdTensor K)
  | .none => Option.none
  | .float v => some v
  | .int q => some q.value

/-- `torch.allclose(a, b)`, with broadcasting. -/
def allcloseTensor (a b : NdTensor K) : Option Bool :=
  (bcOp (fun a b => if allclose a b then (1 : K) else 0) a b).map fun r => (indices r.shape).all fun idx => r.data idx = 1

/-- What a layer returns: a plain tensor or an integer quant tensor. -/
inductive LayerOut (K : Type*) where
  | plain (value : NdTensor K)
  | quant (q : ShapedQT K)

/-- `(t != 0.0).any()`. -/
def anyNonzero (t : NdTensor K) : Bool := (indices t.shape).any fun idx => t.data idx ≠ 0

/-- The zero point made of the bias, int_torch_handler.py:185-189. `isinstance(fn, torch.nn.Linear)` is false for every function, so the channel dimension is 1 for
linear layers too, and an input without batch dimension is an IndexError (torch_utils.py:89-90). -/
def biasZeroPoint (rank : ℕ) (bias scale : NdTensor K) : Option (NdTensor K) :=
  if rank ≤ 1 then none else bcOp (fun b s => -b / s) (channelView rank 1 bias) scale

/-- `output_zero_point` and `output_bit_width` after lines 180-193 (and `zeros(1)` of line 204). -/
def biasMeta (rank : ℕ) (bias : BiasTensor K) (scale : NdTensor K) (acc : ℕ) : Option (NdTensor K × ℕ) :=
  match bias with
  | .none => some (⟨[1], fun _ => 0⟩, acc)
  | .float b => (biasZeroPoint rank b scale).map fun z => (z, acc)
  | .int q =>
    (allcloseTensor q.scale scale).bind fun close =>
    (if close then some ⟨[1], fun _ => 0⟩ else biasZeroPoint rank q.value scale).map fun z =>
      (z, (if q.bitWidth > acc then q.bitWidth else acc) + 1)

/-- `quant_layer`, int_torch_handler.py:140-213, for an input and a weight that are both integer quant tensors. -/
def quantLayer (fn : LayerFn) (x w : ShapedQT K) (bias : BiasTensor K) : Option (LayerOut K) :=
  (fn.apply x.value w.value (bias.value.map NdTensor.data)).bind fun output =>
  (fn.maxAccBitWidth x.bitWidth w.bitWidth w.value.shape).bind fun acc =>
  (outputScale fn x.value.shape.length x.scale w.scale).bind fun scale =>
  (biasMeta x.value.shape.length bias scale acc).map fun zb =>
    if anyNonzero x.zeroPoint || anyNonzero w.zeroPoint then .plain output
    else .quant ⟨output, scale, zb.1, zb.2, x.signed || w.signed, x.training || w.training⟩

/-- `BiasQuantProxyFromInjector.quant_output_scale_impl` followed by `.view(-1)` (src/brevitas/proxy/parameter_quant.py:307-313 and 347): the scale handed to a bias
quantiser that takes its scale from the layer, and returned by it with the quantised bias (core/quant/int.py:79-83). -/
def proxyBiasScale (fn : LayerFn) (rank : ℕ) (inputScale weightScale : NdTensor K) : Option (NdTensor K) :=
  let dim := fn.channelDim rank
  (bcOp (fun a b => a * b) (channelView rank dim weightScale) (channelView rank dim inputScale)).map fun s =>
    ⟨[s.shape.prod], fun idx => s.data (fromPosition s.shape (idx.getD 0 0))⟩

end QuantConv

end Brevitas
