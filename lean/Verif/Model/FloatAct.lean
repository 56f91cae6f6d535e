import Verif.Model.ActLayer
import Verif.Model.FloatTensor

/-!
# Minifloat activation quantisers: `src/brevitas/proxy/float_runtime_quant.py`, `src/brevitas/proxy/runtime_quant.py`

With the cache of metadata (`_CachedIOFloat`, src/brevitas/utils/quant_utils.py:41-86). A tensor is the list of its elements, which are finite; formats saturate; the
scaling keeps no state (a constant, a learned parameter, statistics of the input or a buffer in eval mode). Not modelled: the export mode, `torch.compile`, per-channel
scales.
-/

namespace Brevitas.FloatAct

open ActLayer

variable {K : Type*} [Field K] [LinearOrder K] [IsStrictOrderedRing K] [FloorRing K]

/-- What goes into and comes out of an activation quantiser. Of an integer quant tensor only the value is kept. -/
inductive FTensor (K : Type*) where
  | plain (value : List K)
  | float (q : FloatQT K)
  | int (value : List K)

/-- `x.value` of a quant tensor, the tensor itself otherwise, runtime_quant.py:173-175. -/
def FTensor.value : FTensor K → List K
  | .plain v => v
  | .float q => q.value
  | .int v => v

/-- `_CachedIOFloat`, quant_utils.py:41-86: the shape (here the length), the value if it is kept, and a quant tensor (without value if only metadata are kept) that holds
the rest. -/
structure Cached (K : Type*) where
  size : ℕ
  value : Option (List K)
  scale : K
  zeroPoint : K
  E : ℕ
  M : ℕ
  bias : ℤ
  saturating : Bool
  infValues : Option (List (List Bool))
  nanValues : Option (List (List Bool))
  signed : Bool
deriving DecidableEq, Repr

/-- `_CachedIOFloat.__init__`, quant_utils.py:43-53. -/
def Cached.of (q : FloatQT K) (metadataOnly : Bool) : Cached K :=
  ⟨q.value.length, if metadataOnly then none else some q.value, q.scale, q.zeroPoint, q.E, q.M, q.bias, q.saturating, q.infValues, q.nanValues, q.signed⟩

/-- An activation quantiser: what its injector holds and its state (`ActQuantProxyFromInjectorBase.__init__`, runtime_quant.py:93-100). `tensorQuant` is the format and the
scaling of `FloatQuant`; its sign is that of the injector (`is_signed`, quant_proxy.py:83). -/
structure Proxy (K : Type*) where
  actImpl : Option (ActImpl K)
  passthroughAct : Bool
  tensorQuant : Option (FloatCfg K × (List K → K))
  disableQuant : Bool
  training : Bool
  cacheOn : Bool
  metadataOnly : Bool
  cached : Option (Cached K)

/-- `is_quant_enabled`, runtime_quant.py:130-132 and 146. -/
def Proxy.isEnabled (p : Proxy K) : Bool := p.tensorQuant.isSome && !p.disableQuant

/-- `fused_activation_quant_proxy.activation_impl(y)`: `init_tensor_quant`, runtime_quant.py:138-155. -/
def Proxy.activate (p : Proxy K) (y : List K) : List K :=
  match p.actImpl with
  | none => y
  | some a => if isActEnabled p.actImpl p.tensorQuant.isSome then y.map a.eval else y

/-- `FloatQuant.forward`, core/quant/float.py:83-100, with `create_quant_tensor` (float_runtime_quant.py:80-81): the fields in the order the quantiser returns them. -/
def quantised (c : FloatCfg K) (scaleOf : List K → K) (training : Bool) (y : List K) : FloatQT K :=
  let scale := scaleOf y
  ⟨y.map (c.forwardSat scale), scale, 0, c.E, c.M, c.bias, c.saturating, c.infValues, c.nanValues, c.signed, training⟩

/-- `create_quant_tensor` with a quant tensor that passes through, float_runtime_quant.py:82-95: the constructor takes the exponent's width before the mantissa's
(float_quant_tensor.py:17-30), the call gives them the other way round. -/
def passed (q : FloatQT K) (training : Bool) (y : List K) : FloatQT K :=
  ⟨y, q.scale, q.zeroPoint, q.M, q.E, q.bias, q.saturating, q.infValues, q.nanValues, q.signed, training⟩

/-- The output of `ActQuantProxyFromInjectorBase.forward`, runtime_quant.py:168-202. `none` is an exception: without a quantiser `input_view_impl`
(float_runtime_quant.py:40-45) asks `_TensorQuantDisabledIdentity` for an attribute it has not; an integer quant tensor has no width of a mantissa. -/
def Proxy.output (p : Proxy K) (x : FTensor K) : Option (FTensor K) :=
  if !isActEnabled p.actImpl p.tensorQuant.isSome && p.tensorQuant.isNone then some x
  else
    let y := p.activate x.value
    match p.tensorQuant with
    | none => none
    | some (c, scaleOf) =>
      if p.disableQuant then
        match isPassthroughAct p.actImpl p.passthroughAct, x with
        | true, .float q => some (.float (passed q p.training y))
        | true, .int _ => none
        | _, _ => some (.plain y)
      else some (.float (quantised c scaleOf p.training y))

/-- `forward`, runtime_quant.py:168-207, with the cache (204-206). (A proxy without quantiser and activation returns at once, 170-171.) -/
def Proxy.forward (p : Proxy K) (x : FTensor K) : Option (Proxy K × FTensor K) :=
  (p.output x).map fun out =>
    if !isActEnabled p.actImpl p.tensorQuant.isSome && p.tensorQuant.isNone then (p, out)
    else
      match out with
      | .float q => (if !p.training && p.cacheOn then { p with cached := some (Cached.of q p.metadataOnly) } else p, out)
      | _ => (p, out)

/-- `retrieve_attribute`, runtime_quant.py:118-125, with `internal_forward` (110-116) and `force_eval=True`; all the attributes at once, with the fields of a cache. A quantiser
that is neither cached nor enabled returns `None` for each. -/
def Proxy.query (p : Proxy K) : Option (Proxy K × Option (Cached K)) :=
  match p.cached with
  | some c => some (p, some c)
  | none =>
    if p.isEnabled then
      (({ p with training := false }).forward (.plain [0])).bind fun r =>
        match r.2 with
        | .float q => some ({ r.1 with training := p.training }, some (Cached.of q true))
        | _ => none
    else some (p, none)

/-- What can happen to a quantiser between two questions about its format (`query` is apart from these). -/
inductive Op (K : Type*) where
  /-- `module.train(b)` -/
  | train (b : Bool)
  /-- `proxy.disable_quant = b` -/
  | disable (b : Bool)
  /-- `proxy.cache_inference_quant_act = b` -/
  | setCache (b : Bool)
  /-- `proxy.cache_quant_io_metadata_only = b` -/
  | setMetadataOnly (b : Bool)
  /-- a forward pass -/
  | call (x : FTensor K)

/-- One operation, with the output of a forward pass. -/
def Proxy.step (p : Proxy K) : Op K → Option (Proxy K × Option (FTensor K))
  | .train b => some ({ p with training := b }, none)
  | .disable b => some ({ p with disableQuant := b }, none)
  | .setCache b => some ({ p with cacheOn := b }, none)
  | .setMetadataOnly b => some ({ p with metadataOnly := b }, none)
  | .call x => (p.forward x).map fun r => (r.1, some r.2)

/-- A history: final state and outputs. -/
def Proxy.run (p : Proxy K) : List (Op K) → Option (Proxy K × List (FTensor K))
  | [] => some (p, [])
  | o :: os => (p.step o).bind fun r => (r.1.run os).map fun r' => (r'.1, r.2.toList ++ r'.2)

end Brevitas.FloatAct
