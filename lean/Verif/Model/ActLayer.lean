import Verif.Model.WbLayer

/-!
# Quantised activation layers

`src/brevitas/nn/quant_activation.py`, `QuantNonLinearActLayer` of `src/brevitas/nn/quant_layer.py` and the activation function within an activation quantiser,
`src/brevitas/proxy/runtime_quant.py`. Not modelled: the export mode, `torch.compile`, the cache of metadata and the padding of group-wise quantisers.
-/

namespace Brevitas

namespace ActLayer

open NdTensor QuantConv WbLayer

variable {K : Type*} [Field K] [LinearOrder K] [IsStrictOrderedRing K] [FloorRing K]

/-- `act_impl`: a `nn.Hardtanh` (or a subclass of it, such as `nn.ReLU6`) with its limits, or another function applied to every element. -/
inductive ActImpl (K : Type*) where
  | hardtanh (minVal maxVal : K)
  | fn (f : K → K)

/-- What the module computes for an element. -/
def ActImpl.eval : ActImpl K → K → K
  | .hardtanh minVal maxVal, x => torchClamp x minVal maxVal
  | .fn f, x => f x

/-- `nn.ReLU()`. -/
def relu : ActImpl K := .fn fun x => max x 0

/-- `_is_passthrough_act`, proxy/runtime_quant.py:32-40. -/
def isPassthroughAct (actImpl : Option (ActImpl K)) (passthroughAct : Bool) : Bool :=
  match actImpl with
  | none => true
  | some _ => passthroughAct

/-- `_is_act_enabled`, proxy/runtime_quant.py:43-50. -/
def isActEnabled (actImpl : Option (ActImpl K)) (hasTensorQuant : Bool) : Bool :=
  match actImpl with
  | none => false
  | some (.hardtanh _ _) => !hasTensorQuant
  | some (.fn _) => true

/-- `FusedActivationQuantProxy`, proxy/runtime_quant.py:78-89: no activation is `Identity`, no quantiser is `_TensorQuantDisabledIdentity` (67-75). -/
structure Fused (K : Type*) where
  activationImpl : Option (ActImpl K)
  tensorQuant : Option (TensorQuant K)

/-- `activation_impl(x)`. -/
def Fused.activate (u : Fused K) (x : NdTensor K) : NdTensor K :=
  match u.activationImpl with
  | none => x
  | some a => x.map a.eval

/-- An activation quantiser: what its injector holds (`act_impl`, `passthrough_act`, `tensor_quant`), whether it is not disabled, and its mode. -/
structure ActQuant (K : Type*) where
  actImpl : Option (ActImpl K)
  passthroughAct : Bool
  tensorQuant : Option (TensorQuant K)
  enabled : Bool
  training : Bool

/-- `init_tensor_quant`, proxy/runtime_quant.py:138-155. -/
def ActQuant.fused (p : ActQuant K) : Option (Fused K) :=
  match isActEnabled p.actImpl p.tensorQuant.isSome, p.tensorQuant.isSome with
  | true, true => some ⟨p.actImpl, p.tensorQuant⟩
  | true, false => some ⟨p.actImpl, none⟩
  | false, true => some ⟨none, p.tensorQuant⟩
  | false, false => none

/-- `is_quant_enabled`, proxy/runtime_quant.py:130-136 with line 146. -/
def ActQuant.isEnabled (p : ActQuant K) : Bool := p.tensorQuant.isSome && p.enabled

/-- `ActQuantProxyFromInjectorBase.forward`, proxy/runtime_quant.py:168-207, and `create_quant_tensor` (225-235). -/
def ActQuant.forward (p : ActQuant K) (x : LayerOut K) : Except LayerError (LayerOut K) :=
  match p.fused with
  | none => .ok x
  | some u =>
    let y := u.activate (unpack x)
    match (if p.isEnabled then u.tensorQuant else none) with
    | some t => (t.run p.training y).map .quant
    | none =>
      match isPassthroughAct p.actImpl p.passthroughAct, x with
      | true, .quant q => .ok (.quant { q with value := y, training := p.training })
      | _, _ => .ok (.plain y)

/-- `QuantNonLinearActLayer`, nn/quant_layer.py:20-34. -/
structure Layer (K : Type*) where
  inputQuant : ActProxy K
  actQuant : ActQuant K
  returnQuantTensor : Bool

/-- `QuantNonLinearActLayer.forward`, nn/quant_layer.py:44-54. -/
def Layer.forward (l : Layer K) (input : LayerOut K) : Except LayerError (LayerOut K) :=
  (l.inputQuant.forward input).bind fun quantInput =>
  (l.actQuant.forward quantInput).bind fun out =>
  packOutput l.returnQuantTensor out

/-- No input quantiser, the default of every activation layer. -/
def noQuant : ActProxy K := ⟨none, false, true, false⟩

/-- `QuantReLU`, nn/quant_activation.py:34-49; `none` is `act_quant=None`. -/
def quantReLU (t : Option (TensorQuant K)) (enabled training returnQuantTensor : Bool) : Layer K :=
  ⟨noQuant, ⟨some relu, true, t, enabled, training⟩, returnQuantTensor⟩

/-- `QuantSigmoid` and `QuantTanh`, nn/quant_activation.py:52-85, with the function given as `f`. -/
def quantFn (f : K → K) (t : Option (TensorQuant K)) (enabled training returnQuantTensor : Bool) : Layer K :=
  ⟨noQuant, ⟨some (.fn f), false, t, enabled, training⟩, returnQuantTensor⟩

/-- `QuantHardTanh`, nn/quant_activation.py:88-103. -/
def quantHardTanh (minVal maxVal : K) (t : Option (TensorQuant K)) (enabled training returnQuantTensor : Bool) : Layer K :=
  ⟨noQuant, ⟨some (.hardtanh minVal maxVal), true, t, enabled, training⟩, returnQuantTensor⟩

/-- `QuantIdentity`, nn/quant_activation.py:106-119. -/
def quantIdentity (t : Option (TensorQuant K)) (enabled training returnQuantTensor : Bool) : Layer K :=
  ⟨noQuant, ⟨none, true, t, enabled, training⟩, returnQuantTensor⟩

end ActLayer

end Brevitas
