import Verif.Model.QuantConv
import Verif.Model.IntQuant

/-!
# The forward pass of a quantised layer (`src/brevitas/nn/quant_layer.py`, `src/brevitas/proxy`)

`QuantLinear`, `QuantConv1d/2d/3d` and `QuantConvTranspose1d/2d/3d` with integer quantisers for input, weight, bias and output. Not modelled: the export mode, tracing,
caches other than that of the bias scale (see `Cache.lean`), observer mode, activation functions fused into the quantisers, and the views of group-wise quantisers.
The weight `weight_orig` of layers under GPxQ (nn/mixin/parameter.py:46-47) is in `GpxqMode.lean`.
-/

namespace Brevitas

namespace WbLayer

open NdTensor QuantConv

variable {K : Type*} [Field K] [LinearOrder K] [IsStrictOrderedRing K] [FloorRing K]

/-- The exceptions told apart: the RuntimeError of quant_layer.py:149-151, the RuntimeError of parameter_quant.py:341-344, the assertion of mixin/base.py:103, and any other. -/
inductive LayerError where
  | notConfigured
  | inputScaleRequired
  | notQuantTensor
  | other
  deriving DecidableEq

/-- An operation of torch that may raise. -/
def torchOp {α : Type*} : Option α → Except LayerError α
  | some a => .ok a
  | none => .error .other

/-- `int_quant(scale, zero_point, bit_width, x)` (core/quant/int_base.py:86-91) on tensors, with broadcasting. -/
def intQuantTensor (c : IntQuantCfg K) (bw : ℕ) (scale zeroPoint x : NdTensor K) : Option (NdTensor K) :=
  (bcShape x.shape scale.shape).bind fun s => (bcShape s zeroPoint.shape).map fun shape =>
    ⟨shape, fun idx => c.forward (scale.data (bcIndex scale.shape idx)) (zeroPoint.data (bcIndex zeroPoint.shape idx)) bw (x.data (bcIndex x.shape idx))⟩

/-- A `RescalingIntQuant` (core/quant/int.py:133-148): scale and zero point are functions of the tensor, so that both static and dynamic scaling are covered. -/
structure TensorQuant (K : Type*) where
  cfg : IntQuantCfg K
  bitWidth : ℕ
  scale : NdTensor K → NdTensor K
  zeroPoint : NdTensor K → NdTensor K

/-- `RescalingIntQuant.forward` (core/quant/int.py:150-160), and the tensor made of it (proxy/runtime_quant.py:230-231, proxy/parameter_quant.py:210-211). -/
def TensorQuant.run (t : TensorQuant K) (training : Bool) (x : NdTensor K) : Except LayerError (ShapedQT K) :=
  (torchOp (intQuantTensor t.cfg t.bitWidth (t.scale x) (t.zeroPoint x) x)).map fun y =>
    ⟨y, t.scale x, t.zeroPoint x, t.bitWidth, t.cfg.signed, training⟩

/-- `_unpack_quant_tensor` (quant_tensor/base_quant_tensor.py). -/
def unpack : LayerOut K → NdTensor K
  | .plain t => t
  | .quant q => q.value

/-- `isinstance(x, QuantTensor)`. -/
def isQuant : LayerOut K → Bool
  | .plain _ => false
  | .quant _ => true

/-- An activation quantiser without activation function (proxy/runtime_quant.py:130-155): `tensorQuant` is `none` for a quantiser given as `None`; `enabled` is
`is_quant_enabled` of one that is there, which is false within `disable_enable_quantization`. -/
structure ActProxy (K : Type*) where
  tensorQuant : Option (TensorQuant K)
  enabled : Bool
  passthrough : Bool
  training : Bool

/-- `is_quant_enabled` (proxy/quant_proxy.py:100-102): there is a quantiser and it is not disabled. -/
def ActProxy.isEnabled (p : ActProxy K) : Bool := p.tensorQuant.isSome && p.enabled

/-- `ActQuantProxyFromInjectorBase.forward` (proxy/runtime_quant.py:168-207). -/
def ActProxy.forward (p : ActProxy K) (x : LayerOut K) : Except LayerError (LayerOut K) :=
  match p.tensorQuant with
  | none => .ok x
  | some t =>
    if p.enabled then (t.run p.training (unpack x)).map .quant
    else
      match p.passthrough, x with
      | true, .quant q => .ok (.quant { q with training := p.training })
      | _, x => .ok (.plain (unpack x))

/-- A weight quantiser. -/
structure WeightProxy (K : Type*) where
  tensorQuant : Option (TensorQuant K)
  training : Bool

/-- `WeightQuantProxyFromInjectorBase.forward` (proxy/parameter_quant.py:127-150); a disabled quantiser is `none`. -/
def WeightProxy.forward (p : WeightProxy K) (w : NdTensor K) : Except LayerError (LayerOut K) :=
  match p.tensorQuant with
  | none => .ok (.plain w)
  | some t => (t.run p.training w).map .quant

/-- The bias quantiser: none (or disabled), one that takes its scale from the layer (`requires_input_scale`), or one with a scale of its own. -/
inductive BiasQuant (K : Type*) where
  | none
  | external (cfg : IntQuantCfg K) (bitWidth : ℕ)
  | own (t : TensorQuant K)

/-- A bias quantiser with its cache. -/
structure BiasProxy (K : Type*) where
  quant : BiasQuant K
  cachedScale : Option (NdTensor K)
  training : Bool

/-- `PrescaledRestrictIntQuant.forward` (core/quant/int.py:78-83): zero point 0. -/
def externalRun (cfg : IntQuantCfg K) (bitWidth : ℕ) (training : Bool) (x scale : NdTensor K) : Except LayerError (ShapedQT K) :=
  (torchOp (intQuantTensor cfg bitWidth scale ⟨[], fun _ => 0⟩ x)).map fun y => ⟨y, scale, ⟨[], fun _ => 0⟩, bitWidth, cfg.signed, training⟩

/-- `BiasQuantProxyFromInjector.forward` (proxy/parameter_quant.py:332-362) with `compute_bias_scale` (315-330), for a quantiser that is not shared between layers. The scale
is computed for a disabled quantiser too. -/
def BiasProxy.forward (p : BiasProxy K) (fn : LayerFn) (bias : NdTensor K) (x w : LayerOut K) : Except LayerError (BiasTensor K) :=
  match p.quant with
  | .own t => (t.run p.training bias).map .int
  | .none =>
    match x, w with
    | .quant x, .quant w => (torchOp (proxyBiasScale fn x.value.shape.length x.scale w.scale)).map fun _ => .float bias
    | _, _ => .ok (.float bias)
  | .external cfg bitWidth =>
    match x, w with
    | .quant x, .quant w => (torchOp (proxyBiasScale fn x.value.shape.length x.scale w.scale)).bind fun s => (externalRun cfg bitWidth p.training bias s).map .int
    | _, _ =>
      match p.cachedScale with
      | some s => (externalRun cfg bitWidth p.training bias s).map .int
      | none => .error .inputScaleRequired

/-- `inner_forward_impl` (nn/quant_linear.py:68-70, nn/quant_conv.py:107-111, 196-200, 298-302 without the same padding of `SameConv.lean`, nn/quant_convtranspose.py:116-123, 211-218, 306-313): the function of torch, through `quant_layer`
(quant_tensor/int_torch_handler.py:140-213) when one of the arguments is a quant tensor. -/
def innerForward (fn : LayerFn) (x w : LayerOut K) (bias : BiasTensor K) : Except LayerError (LayerOut K) :=
  match x, w with
  | .quant x, .quant w => torchOp (quantLayer fn x w bias)
  | x, w => torchOp ((fn.apply (unpack x) (unpack w) (bias.value.map NdTensor.data)).map .plain)

/-- `QuantWeightBiasInputOutputLayer` (nn/quant_layer.py:95-113). -/
structure Layer (K : Type*) where
  fn : LayerFn
  weight : NdTensor K
  bias : Option (NdTensor K)
  inputQuant : ActProxy K
  weightQuant : WeightProxy K
  biasQuant : BiasProxy K
  outputQuant : ActProxy K
  returnQuantTensor : Bool

/-- `pack_output` (nn/mixin/base.py:101-106). -/
def packOutput (returnQuantTensor : Bool) (y : LayerOut K) : Except LayerError (LayerOut K) :=
  if returnQuantTensor then (if isQuant y then .ok y else .error .notQuantTensor) else .ok (.plain (unpack y))

/-- `quant_bias` of `forward_impl` (nn/quant_layer.py:153-156). -/
def Layer.quantBias (l : Layer K) (x w : LayerOut K) : Except LayerError (BiasTensor K) :=
  match l.bias with
  | none => .ok .none
  | some b => l.biasQuant.forward l.fn b x w

/-- `forward_impl` (nn/quant_layer.py:132-161). -/
def Layer.forward (l : Layer K) (inp : LayerOut K) : Except LayerError (LayerOut K) :=
  (l.inputQuant.forward inp).bind fun x =>
  (l.weightQuant.forward l.weight).bind fun w =>
  if ¬((isQuant x && isQuant w) || l.outputQuant.isEnabled) ∧ l.returnQuantTensor then .error .notConfigured
  else
    (l.quantBias x w).bind fun b =>
    (innerForward l.fn x w b).bind fun y =>
    (l.outputQuant.forward y).bind fun y =>
    packOutput l.returnQuantTensor y

end WbLayer

end Brevitas
