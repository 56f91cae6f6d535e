import Verif.Model.Export

/-!
# Caching of quantised weights and of activation scales

`src/brevitas/proxy/parameter_quant.py`, `src/brevitas/proxy/runtime_quant.py`, `src/brevitas/common.py`,
`src/brevitas/export/inference`. Compilation (`is_dynamo_compiling`) is left out.
-/

namespace Brevitas

/-- A weight quantiser as the proxy sees it. `quant` is `tensor_quant`: value and metadata (scale, zero point, bit width) for a weight;
it keeps no state. `requant` is the handler of inference mode: it quantises with given metadata. `view` is `apply_input_view`.
`W`, `V`, `M` are the types of weights, quantised values and metadata. -/
structure WeightQuantizer (W V M : Type*) where
  quant : W → V × M
  requant : M → W → V
  view : W → V

/-- `_CachedIO`, src/brevitas/utils/quant_utils.py:14-25: the value is left out if only metadata are kept. -/
abbrev CachedIO (V M : Type*) := Option V × M

/-- State of a weight proxy and of the parameter it tracks (`WeightQuantProxyFromInjectorBase.__init__`, parameter_quant.py:90-96;
`ExportMixin.__init__`, common.py:13-18). `exporting` is `none` outside export mode; inside it holds what `prepare_for_export` of the
handler stored, which is nothing if quantisation was disabled at that time. -/
structure WeightProxy (W V M : Type*) where
  weight : W
  training : Bool
  enabled : Bool
  cacheOn : Bool
  metadataOnly : Bool
  cached : Option (CachedIO V M)
  exporting : Option (Option (CachedIO V M))

/-- What can happen to a weight proxy. -/
inductive CacheOp (W : Type*) where
  /-- `module.train(b)` -/
  | train (b : Bool)
  /-- `proxy.disable_quant = not b` -/
  | setEnabled (b : Bool)
  /-- `proxy.cache_inference_quant_weight = b` -/
  | setCache (b : Bool)
  /-- `proxy.cache_inference_quant_weight_metadata_only = b` -/
  | setMetadataOnly (b : Bool)
  /-- a training step or a loaded state dictionary -/
  | setWeight (w : W)
  /-- handlers attached and export mode switched on, or export mode switched off -/
  | setExport (b : Bool)
  /-- `proxy(weight)`, as in every forward pass of the layer -/
  | call

namespace WeightProxy

variable {W V M : Type*}

/-- A new proxy, in training mode. -/
def init (w : W) : WeightProxy W V M := ⟨w, true, true, false, false, none, none⟩

/-- `WeightQuantProxyFromInjectorBase.forward`, parameter_quant.py:127-150. A disabled quantiser returns a plain tensor. In export mode the
handler of inference mode answers (`IntWeightInferencetHandler.forward`, handler.py:75-80; `FloatWeightInferencetHandler` likewise);
a handler prepared while quantisation was disabled has no attributes and raises. -/
def forward (q : WeightQuantizer W V M) (p : WeightProxy W V M) : Option (WeightProxy W V M × V × Option M) :=
  if p.enabled then
    match p.exporting with
    | some none => none
    | some (some (some v, m)) => some (p, v, some m)
    | some (some (none, m)) => some (p, q.requant m p.weight, some m)
    | none =>
      let out := q.quant p.weight
      let cached :=
        if !p.training && p.cacheOn && p.cached.isNone then some (if p.metadataOnly then (none, out.2) else (some out.1, out.2))
        else p.cached
      some ({ p with cached := cached }, out.1, some out.2)
  else some (p, q.view p.weight, none)

/-- `ExportMixin.export_mode` setter, common.py:29-44, with the handler attached just before (`_set_export_handler`, export/manager.py:115-124)
and `prepare_for_export`, handler.py:67-73: scale, zero point and bit width are read by calling the proxy, which may fill its cache. -/
def setExport (q : WeightQuantizer W V M) (p : WeightProxy W V M) (b : Bool) : Option (WeightProxy W V M) :=
  if b then
    if p.training then none
    else if p.exporting.isSome then some p
    else if p.enabled then
      (p.forward q).bind fun r => r.2.2.map fun m =>
        let cachedWeight := match r.1.cached with
          | some (v, _) => if r.1.metadataOnly then none else v
          | none => none
        { r.1 with exporting := some (some (cachedWeight, m)) }
    else some { p with exporting := some none }
  else some { p with exporting := none }

/-- One operation, with the result of a call. The setter of `cache_inference_quant_weight` is parameter_quant.py:109-113. -/
def step (q : WeightQuantizer W V M) (p : WeightProxy W V M) : CacheOp W → Option (WeightProxy W V M × Option (V × Option M))
  | .train b => some ({ p with training := b }, none)
  | .setEnabled b => some ({ p with enabled := b }, none)
  | .setCache b => some ({ p with cached := if !b then none else p.cached, cacheOn := b }, none)
  | .setMetadataOnly b => some ({ p with metadataOnly := b }, none)
  | .setWeight w => some ({ p with weight := w }, none)
  | .setExport b => (p.setExport q b).map fun p' => (p', none)
  | .call => (p.forward q).map fun r => (r.1, some r.2)

/-- A history: final state and results of the calls, in order. -/
def run (q : WeightQuantizer W V M) : WeightProxy W V M → List (CacheOp W) → Option (WeightProxy W V M × List (V × Option M))
  | p, [] => some (p, [])
  | p, op :: ops => (p.step q op).bind fun r => (run q r.1 ops).map fun r' => (r'.1, r.2.toList ++ r'.2)

end WeightProxy

/-- `quant_inference_mode` as seen by one weight proxy, export/inference/manager.py:43-92: `__enter__` (54-66), a first forward pass, the
hook (83-92) that switches export mode on, `n` more forward passes, `__exit__` (68-81). `cacheWeight` is `cache_quant_weight`. -/
def inferenceSession {W : Type*} (cacheWeight : Bool) (n : ℕ) : List (CacheOp W) :=
  [.setCache true, .setMetadataOnly (!cacheWeight), .call, .setExport true] ++ List.replicate n .call ++
    (if cacheWeight then [.setCache false, .setMetadataOnly false] else []) ++ [.setExport false]

/-! ### Activation scales -/

/-- State of an activation proxy with a scale that does not depend on the input (a parameter, or a buffer in eval mode). -/
structure ActProxy (S : Type*) where
  scale : S
  training : Bool
  cacheOn : Bool
  cached : Option S

/-- What can happen to an activation proxy. -/
inductive ActCacheOp (S : Type*) where
  | train (b : Bool)
  /-- `cache_inference_quant_act = b`: a plain attribute, nothing is cleared -/
  | setCache (b : Bool)
  /-- the scale is trained, calibrated or loaded -/
  | setScale (s : S)
  | call
  /-- `proxy.scale()` -/
  | readScale

/-- `ActQuantProxyFromInjectorBase.forward`, runtime_quant.py:168-207 (only the cache), and `retrieve_attribute`, 118-125 (the call made to
read an attribute goes through `forward` in eval mode, 110-116). The result is that of `readScale`. -/
def ActProxy.step {S : Type*} (p : ActProxy S) : ActCacheOp S → ActProxy S × Option S
  | .train b => ({ p with training := b }, none)
  | .setCache b => ({ p with cacheOn := b }, none)
  | .setScale s => ({ p with scale := s }, none)
  | .call => ({ p with cached := if !p.training && p.cacheOn then some p.scale else p.cached }, none)
  | .readScale =>
    match p.cached with
    | some s => (p, some s)
    | none => ({ p with cached := if p.cacheOn then some p.scale else none }, some p.scale)

def ActProxy.run {S : Type*} : ActProxy S → List (ActCacheOp S) → ActProxy S × List S
  | p, [] => (p, [])
  | p, op :: ops =>
    let r := p.step op
    let r' := run r.1 ops
    (r'.1, r.2.toList ++ r'.2)

end Brevitas
