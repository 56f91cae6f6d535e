import Verif.Model.A2Q

/-!
# Layers with accumulator-aware weights over their life

`DecoupledWeightQuantWithInputProxyFromInjector` of `src/brevitas/proxy/parameter_quant.py` and its callers, `src/brevitas/nn/mixin/parameter.py` and
`src/brevitas/nn/quant_layer.py`. A layer is the list of its output channels; its input is one vector per output element (a row of a linear layer, a window of a
convolution). Not modelled: the export mode and slices of the weights.
-/

namespace Brevitas.A2QLayer

variable {K : Type*} [Field K] [LinearOrder K] [IsStrictOrderedRing K] [FloorRing K]

/-- The weights of one output channel with its scale and learned norm. -/
structure Channel (K : Type*) where
  ws : List K
  s : K
  g : K

/-- The layer: weight bits, accumulator bits, minimal pre-scale, whether the zero-centred quantiser is used, its channels, and the state of the proxy
(parameter_quant.py:237-242). Of the cached input (`_CachedIO`, utils/quant_utils.py:14-38) the bit width and the sign are read. -/
structure Layer (K : Type*) where
  b : ℕ
  P : ℕ
  minVal : Option K
  zeroCentred : Bool
  channels : List (Channel K)
  enabled : Bool
  training : Bool
  cacheOn : Bool
  cached : Option (ℕ × Bool)

/-- What the layer gets: a plain tensor or a quant tensor of `N` bits with its codes. -/
inductive Inp where
  | plain
  | quant (N : ℕ) (signed : Bool) (codes : List ℤ)

/-- The weight it uses: the plain one or, per channel, the quantised values and their scale. -/
inductive Weight (K : Type*) where
  | plain (ws : List (List K))
  | quant (ws : List (List K × K))

/-- `tensor_quant(x, input_bit_width, input_is_signed)`, core/quant/int.py:252-265, channel by channel; `none` is a division by zero. -/
def tensorQuant (l : Layer K) (N : ℕ) (signed : Bool) : Option (List (List K × K)) :=
  l.channels.mapM fun c =>
    if l.zeroCentred then a2qPlusQuant l.b l.P N l.minVal c.s c.g c.ws else a2qQuant l.b l.P N signed l.minVal c.s c.g c.ws

/-- The caching of the input in `DecoupledWeightQuantWithInputProxyFromInjector.forward`, parameter_quant.py:259-262. -/
def noteInput (l : Layer K) : Option Inp → Layer K
  | some (.quant N signed _) => if !l.training && l.cacheOn then { l with cached := some (N, signed) } else l
  | _ => l

/-- The input whose bit width and sign are used, parameter_quant.py:265-272: the cached one if there is none; `none` is an `AssertionError`. -/
def inputMeta (l : Layer K) : Option Inp → Option (ℕ × Bool)
  | none => l.cached
  | some .plain => none
  | some (.quant N signed _) => some (N, signed)

/-- `DecoupledWeightQuantWithInputProxyFromInjector.forward`, parameter_quant.py:254-278. -/
def weightQuant (l : Layer K) (quantInput : Option Inp) : Option (Layer K × Weight K) :=
  let l := noteInput l quantInput
  if l.enabled then (inputMeta l quantInput).bind fun m => (tensorQuant l m.1 m.2).map fun w => (l, .quant w)
  else some (l, .plain (l.channels.map fun c => c.ws))

/-- What can happen to the layer. -/
inductive Op (K : Type*) where
  /-- `layer.train(b)` -/
  | train (b : Bool)
  /-- `layer.weight_quant.disable_quant = not b` -/
  | setEnabled (b : Bool)
  /-- `layer.weight_quant.cache_inference_quant_act = b` -/
  | setCache (b : Bool)
  /-- a training step or a loaded state dictionary -/
  | setChannels (channels : List (Channel K))
  /-- `layer(x)`: `quant_weight(quant_input)`, nn/quant_layer.py:143 and nn/mixin/parameter.py:68-69 -/
  | forward (x : Inp)
  /-- `layer.quant_weight()`, nn/mixin/parameter.py:41-43 -/
  | quantWeight

/-- One operation, with the weight that it used or returned. -/
def step (l : Layer K) : Op K → Option (Layer K × Option (Weight K))
  | .train b => some ({ l with training := b }, none)
  | .setEnabled b => some ({ l with enabled := b }, none)
  | .setCache b => some ({ l with cacheOn := b }, none)
  | .setChannels cs => some ({ l with channels := cs }, none)
  | .forward x => (weightQuant l (some x)).map fun r => (r.1, some r.2)
  | .quantWeight => (weightQuant l none).map fun r => (r.1, some r.2)

/-- A history: final state and the weights used or returned, in order. -/
def run (l : Layer K) : List (Op K) → Option (Layer K × List (Weight K))
  | [] => some (l, [])
  | o :: os => (step l o).bind fun r => (run r.1 os).map fun r' => (r'.1, r.2.toList ++ r'.2)

end Brevitas.A2QLayer
