import Verif.Model.IntQuant

/-!
# Integer bias quantisers over histories: `src/brevitas/proxy/parameter_quant.py`, `src/brevitas/nn/mixin/parameter.py`

`BiasQuantProxyFromInjector` as a layer uses it. The bias has one dimension, the scales one value per element (a scale for the whole tensor is the same value for each); the
channel layout of `compute_bias_scale` is in `QuantConv.lean`. Not modelled: the export mode, dynamo, `BiasFloatQuantProxyFromInjector` (its `forward` takes two arguments
and the layers call it with three, nn/quant_layer.py:155, so that a layer with a minifloat bias raises a `TypeError`).
-/

set_option linter.unusedSectionVars false

namespace Brevitas.BiasProxy

variable {K : Type*} [Field K] [LinearOrder K] [IsStrictOrderedRing K] [FloorRing K]

/-- The `IntQuantTensor` that is returned for the bias. -/
structure BiasQT (K : Type*) where
  value : List K
  scale : List K
  zeroPoint : K
  bitWidth : ℕ
  signed : Bool
  training : Bool
deriving DecidableEq, Repr

/-- `_CachedIO`, utils/quant_utils.py:14-26: the value is left out if only metadata are kept. -/
structure Cached (K : Type*) where
  value : Option (List K)
  scale : List K
deriving DecidableEq, Repr

/-- `BiasQuantProxyFromInjectorBase.__init__`, parameter_quant.py:155-160, with the bias of the layer: `ownScale` is `none` if `requires_input_scale`, else the scale as a
function of the bias; `tracked` are the modules that share the quantiser (`tracked_module_list`, by identity). -/
structure Proxy (K : Type*) where
  cfg : IntQuantCfg K
  bitWidth : ℕ
  ownScale : Option (List K → List K)
  tracked : List ℕ
  bias : List K
  enabled : Bool
  training : Bool
  cacheOn : Bool
  metadataOnly : Bool
  cached : Option (Cached K)

/-- What `forward` gets besides the bias: the scale of the quantised input and those of the quantised weight, per channel; `none` if either is not a quant tensor. -/
abbrev Args (K : Type*) := Option (K × List K)

/-- `compute_bias_scale`, parameter_quant.py:315-330; the outer `none` is the `RuntimeError`: `type[x] == type[y]` compares the modules, not their classes. -/
def Proxy.computeScale (p : Proxy K) (args : Args K) : Option (Option (List K)) :=
  if p.ownScale.isSome && p.enabled then some none
  else
    match args with
    | none => some none
    | some (a, ws) =>
      if decide (p.tracked.length > 1) && !(p.tracked.all fun m => decide (some m = p.tracked.head?)) then none
      else some (some (ws.map fun w => w * a))

/-- `int_quant` on each element, core/quant/int_base.py:86-91. -/
def quantValues (cfg : IntQuantCfg K) (bitWidth : ℕ) (scale bias : List K) : List K :=
  List.zipWith (fun s b => cfg.forward s 0 bitWidth b) scale bias

/-- `PrescaledRestrictIntQuant.forward` or `RescalingIntQuant.forward` (with zero point 0), core/quant/int.py:78-83, 150-160, and the quant tensor made of it,
parameter_quant.py:353-354. -/
def Proxy.quantised (p : Proxy K) (scale : List K) : BiasQT K :=
  ⟨quantValues p.cfg p.bitWidth scale p.bias, scale, 0, p.bitWidth, p.cfg.signed, p.training⟩

/-- `get_cached('scale')`, parameter_quant.py:166-175. -/
def Proxy.cachedScale (p : Proxy K) : Option (List K) := p.cached.map Cached.scale

/-- The result of an operation. -/
inductive Out (K : Type*) where
  | nothing
  | plain (bias : List K)
  | quant (q : BiasQT K)
  | scale (s : List K)
  | number (x : K)
  | error
deriving DecidableEq, Repr

/-- The cache written at the end of `forward`, parameter_quant.py:355-358. -/
def Proxy.note (p : Proxy K) (q : BiasQT K) : Proxy K :=
  if !p.training && p.cacheOn then { p with cached := some ⟨if p.metadataOnly then none else some q.value, q.scale⟩ } else p

/-- The scale that the quantiser uses, parameter_quant.py:338-351: its own, the one computed from the arguments or the cached one. -/
def Proxy.useScale (p : Proxy K) (inputScale : Option (List K)) : Option (List K) :=
  match p.ownScale with
  | some f => some (f p.bias)
  | none => inputScale <|> p.cachedScale

/-- `BiasQuantProxyFromInjector.forward`, parameter_quant.py:332-361, on the layer's bias. -/
def Proxy.forward (p : Proxy K) (args : Args K) : Proxy K × Out K :=
  match p.computeScale args with
  | none => (p, .error)
  | some inputScale =>
    if p.enabled then
      match p.useScale inputScale with
      | none => (p, .error)
      | some s => (p.note (p.quantised s), .quant (p.quantised s))
    else (p, .plain p.bias)

/-- What can happen to the quantiser. -/
inductive Op (K : Type*) where
  /-- `layer.train(b)` -/
  | train (b : Bool)
  /-- `layer.bias_quant.disable_quant = not b` -/
  | setEnabled (b : Bool)
  /-- `layer.bias_quant.cache_inference_quant_bias = b` -/
  | setCache (b : Bool)
  /-- `layer.bias_quant.cache_inference_quant_bias_metadata_only = b` -/
  | setMetadataOnly (b : Bool)
  /-- a training step or a loaded state dictionary -/
  | setBias (bias : List K)
  /-- a forward pass of the layer, nn/quant_layer.py:155 -/
  | forward (args : Args K)
  /-- `layer.quant_bias()` -/
  | quantBias
  /-- `layer.bias_quant.scale()` -/
  | askScale
  /-- `layer.bias_quant.zero_point()` -/
  | askZeroPoint
  /-- `layer.bias_quant.bit_width()` -/
  | askBitWidth

/-- `quant_bias`, nn/mixin/parameter.py:104-108. -/
def Proxy.quantBias (p : Proxy K) : Proxy K × Out K := p.forward none

/-- An attribute of what a call of the quantiser without arguments returns (the sentinel given as `input` is no quant tensor): `zero_point`, `bit_width`,
parameter_quant.py:292-304, and `scale`, 288-290. -/
def Proxy.ask (p : Proxy K) (attr : BiasQT K → Out K) : Proxy K × Out K :=
  if p.enabled then
    let r := p.forward none
    (r.1, match r.2 with
      | .quant q => attr q
      | o => o)
  else (p, .nothing)

/-- `BiasQuantProxyFromInjector.scale`, parameter_quant.py:282-290. -/
def Proxy.askScale (p : Proxy K) : Proxy K × Out K :=
  if p.enabled && p.ownScale.isNone then (p, (p.cachedScale.map Out.scale).getD .nothing)
  else p.ask fun q => .scale q.scale

/-- One operation, with its result. After an exception the quantiser is as it was. -/
def Proxy.step (p : Proxy K) : Op K → Proxy K × Out K
  | .train b => ({ p with training := b }, .nothing)
  | .setEnabled b => ({ p with enabled := b }, .nothing)
  | .setCache b => ({ p with cacheOn := b }, .nothing)
  | .setMetadataOnly b => ({ p with metadataOnly := b }, .nothing)
  | .setBias bias => ({ p with bias := bias }, .nothing)
  | .forward args => p.forward args
  | .quantBias => p.quantBias
  | .askScale => p.askScale
  | .askZeroPoint => p.ask fun q => .number q.zeroPoint
  | .askBitWidth => p.ask fun q => .number q.bitWidth

/-- A history: the quantiser after it. -/
def Proxy.run (p : Proxy K) : List (Op K) → Proxy K
  | [] => p
  | o :: os => (p.step o).1.run os

end Brevitas.BiasProxy
