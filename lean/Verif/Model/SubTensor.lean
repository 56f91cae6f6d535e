import Verif.Spec.SubTensor
import Verif.Model.Shape
import Verif.Model.IntQuant

/-!
# Quantising a part of the weight (`QuantWeightMixin.quant_weight`, src/brevitas/nn/mixin/parameter.py)

A layer with an integer weight quantiser, quantised whole or by slices, as the GPxQ algorithms do for a column at a time (src/brevitas/graph/gpxq.py:259-316).
Not modelled: group-wise quantisers (their view of the weight), quantisers that need the quantised input, export mode, `quant_delay_steps`, and shared quantisers.
-/

namespace Brevitas

namespace SubTensor

open NdTensor

variable {K : Type*} [Field K] [LinearOrder K] [IsStrictOrderedRing K] [FloorRing K]

/-- A `subtensor_slice_list` (nn/mixin/parameter.py:44). -/
abbrev Slices := List (Option (ℤ × ℤ))

/-- A bound of a slice, as Python and torch read it on a dimension of size `n`: counted from the end if negative, then clipped. -/
def bound (n : ℕ) (a : ℤ) : ℕ := ((if a < 0 then a + n else a).toNat).min n

/-- First position and number of positions of a slice of a dimension (`slice(*s)`, or `slice(None)`). -/
def span (n : ℕ) : Option (ℤ × ℤ) → ℕ × ℕ
  | none => (0, n)
  | some (a, b) => (bound n a, bound n b - bound n a)

/-- The spans of all the dimensions; dimensions without an entry are whole. -/
def spans : List ℕ → Slices → List (ℕ × ℕ)
  | [], _ => []
  | n :: ns, [] => span n none :: spans ns []
  | n :: ns, s :: sl => span n s :: spans ns sl

/-- `x[tuple(slice(*s) if s is not None else slice(s) for s in slices)]` (nn/mixin/parameter.py:64-71; core/utils.py:96-99); `none` is the IndexError for more
slices than dimensions. -/
def sliceTensor {A : Type*} (sl : Slices) (x : NdTensor A) : Option (NdTensor A) :=
  if sl.length ≤ x.shape.length then
    some ⟨(spans x.shape sl).map Prod.snd, fun idx => x.data (List.zipWith (fun p i => p.1 + i) (spans x.shape sl) idx)⟩
  else none

/-- `x.slice(i, s[0], s[1])`; an IndexError if there is no such dimension. -/
def sliceDim {A : Type*} (i : ℕ) (s : ℤ × ℤ) (x : NdTensor A) : Option (NdTensor A) :=
  if i < x.shape.length then
    let p := span (x.shape.getD i 0) (some s)
    some ⟨x.shape.set i p.2, fun idx => x.data (idx.modify i (p.1 + ·))⟩
  else none

/-- The loop over the dimensions of `SliceTensor.forward` under TorchScript (core/utils.py:103-106). -/
def sliceJit {A : Type*} (i : ℕ) : Slices → NdTensor A → Option (NdTensor A)
  | [], x => some x
  | none :: sl, x => sliceJit (i + 1) sl x
  | some s :: sl, x => (sliceDim i s x).bind (sliceJit (i + 1) sl)

/-- `SliceTensor.forward` (core/utils.py:102-109). -/
def slicerForward {A : Type*} (jit : Bool) (sl : Slices) (x : NdTensor A) : Option (NdTensor A) :=
  if jit then sliceJit 0 sl x else sliceTensor sl x

/-- `float_to_int_impl`: an element-wise rounding function, or a `LearnedRoundSte` (core/function_wrapper/learned_round.py:60-77) with its parameter, its
implementation and its slicer (an object, so a number standing for it). -/
inductive Rounding (K : Type*) where
  | plain (f : K → ℤ)
  | learned (value : NdTensor K) (impl : K → K) (slicer : ℕ)

/-- Where a scale or zero point comes from: a constant or parameter (core/scaling/standalone.py), statistics of the tracked weight whatever the tensor passed
(core/scaling/runtime.py:55-60, core/zero_point.py), or statistics of the tensor passed (core/scaling/pre_scaling.py:94-102, core/zero_point.py:314-328). -/
inductive Source (K : Type*) where
  | const (t : NdTensor K)
  | tracked (f : NdTensor K → NdTensor K)
  | argument (f : NdTensor K → NdTensor K)

/-- The scale or zero point, for a layer of weight `weight` asked to quantise `x`. -/
def Source.eval (s : Source K) (weight x : NdTensor K) : NdTensor K :=
  match s with
  | .const t => t
  | .tracked f => f weight
  | .argument f => f x

/-- `DecoupledRescalingIntQuant` (core/quant/int.py:164-202).  `RescalingIntQuant` (core/quant/int.py:133-160) is the case where `preScale` is `scale` and
`preZeroPoint` is `zeroPoint`. -/
structure Quantizer (K : Type*) where
  signed : Bool
  narrow : Bool
  bitWidth : ℕ
  rounding : Rounding K
  preScale : Source K
  preZeroPoint : Source K
  scale : Source K
  zeroPoint : Source K

/-- The layer: `weightOrig` is the copy GPxQ makes (`hasattr(self, 'weight_orig')`), `slicers` the `subtensor_slice_list` of every slicer there is,
`cachedModules` is `_cached_sub_tensor_slice_list_modules`, `cachedWeight` the cache of the proxy (proxy/parameter_quant.py:87-88). -/
structure Layer (K : Type*) where
  weight : NdTensor K
  weightOrig : Option (NdTensor K)
  enabled : Bool
  training : Bool
  jit : Bool
  quant : Quantizer K
  slicers : ℕ → Slices
  cachedModules : Option (List ℕ)
  cacheOn : Bool
  cachedWeight : Option (NdTensor K)

/-- What `quant_weight` returns: a tensor, and the scale and zero point if it is a quant tensor. -/
structure Out (K : Type*) where
  value : NdTensor K
  scaleZp : Option (NdTensor K × NdTensor K)

/-- `LearnedRoundSte.p_forward` (core/function_wrapper/learned_round.py:79-85). -/
def pForward (training : Bool) (value : NdTensor K) (impl : K → K) : NdTensor K :=
  if training then value.map impl else value.map fun v => if 0 < v then 1 else 0

/-- `float_to_int_impl(y)`; for the learned one core/function_wrapper/learned_round.py:73-77. -/
def Rounding.forward (training jit : Bool) (slicers : ℕ → Slices) (r : Rounding K) (y : NdTensor K) : Option (NdTensor K) :=
  match r with
  | .plain f => some (y.map fun v => (f v : K))
  | .learned value impl slicer =>
    (slicerForward jit (slicers slicer) (pForward training value impl)).bind fun p => bcOp (· + ·) (y.map fun v => (torchFloor v : K)) p

/-- `DecoupledIntQuant.forward` (core/quant/int_base.py:143-176) on tensors, with broadcasting. -/
def Quantizer.int (q : Quantizer K) (training jit : Bool) (slicers : ℕ → Slices) (preScale preZeroPoint scale zeroPoint x : NdTensor K) : Option (NdTensor K) :=
  (bcOp (· / ·) x preScale).bind fun y =>
  (bcOp (· + ·) y preZeroPoint).bind fun y =>
  (q.rounding.forward training jit slicers y).bind fun y =>
  (bcOp (· - ·) (y.map fun v => tensorClamp v (minInt q.signed q.narrow q.bitWidth) (maxInt q.signed q.narrow q.bitWidth)) zeroPoint).bind fun y =>
  bcOp (· * ·) y scale

/-- `WeightQuantProxyFromInjectorBase.forward` (proxy/parameter_quant.py:127-150) on tensor `x`: what is returned, and the layer with the cache filled. -/
def Layer.proxy (l : Layer K) (x : NdTensor K) : Option (Out K) × Layer K :=
  if l.enabled then
    let scale := l.quant.scale.eval l.weight x
    let zeroPoint := l.quant.zeroPoint.eval l.weight x
    match l.quant.int l.training l.jit l.slicers (l.quant.preScale.eval l.weight x) (l.quant.preZeroPoint.eval l.weight x) scale zeroPoint x with
    | none => (none, l)
    | some y =>
      (some ⟨y, some (scale, zeroPoint)⟩,
        if !l.training && l.cacheOn && l.cachedWeight.isNone then { l with cachedWeight := some y } else l)
  else (some ⟨x, none⟩, l)

/-- The modules of the quantiser with an attribute `subtensor_slice_list` (nn/mixin/parameter.py:59-60). -/
def Quantizer.slicerModules (q : Quantizer K) : List ℕ :=
  match q.rounding with
  | .plain _ => []
  | .learned _ _ slicer => [slicer]

/-- Assignment of `subtensor_slice_list` to some modules. -/
def setSlicers (slicers : ℕ → Slices) (ms : List ℕ) (sl : Slices) : ℕ → Slices := fun m => if m ∈ ms then sl else slicers m

/-- `weights_to_quantize` (nn/mixin/parameter.py:45-47). -/
def Layer.toQuantize (l : Layer K) : NdTensor K :=
  if l.enabled then l.weight else l.weightOrig.getD l.weight

/-- `quant_weight(subtensor_slice_list=sl)` (nn/mixin/parameter.py:41-78); `none` is an exception. -/
def Layer.quantWeight (l : Layer K) (sl : Option Slices) : Option (Out K) × Layer K :=
  match sl with
  | none =>
    match sliceTensor [none] l.toQuantize with
    | none => (none, l)
    | some x => l.proxy x
  | some sl =>
    let ms := l.cachedModules.getD l.quant.slicerModules
    let l := { l with cachedModules := some ms, slicers := setSlicers l.slicers ms sl }
    match sliceTensor sl l.toQuantize with
    | none => (none, l)
    | some x =>
      match l.proxy x with
      | (none, l) => (none, l)
      | (some out, l) => (some out, { l with slicers := setSlicers l.slicers (l.cachedModules.getD []) [none] })

/-- What a program does with a layer between calls: the weight is updated in place, the layer goes to training or evaluation, quantisation is turned on or off, the
weight is kept in `weight_orig` or that copy is dropped, the cache of the proxy is turned on or off (proxy/parameter_quant.py:109-113), and `quant_weight` is called. -/
inductive Action (K : Type*) where
  | update (weight : NdTensor K)
  | train (on : Bool)
  | enable (on : Bool)
  | keepOrig (on : Bool)
  | cache (on : Bool)
  | call (sl : Option Slices)

/-- One step: the layer after it, and what was returned if it was a call. -/
def Layer.step (l : Layer K) : Action K → Layer K × Option (Option (Out K))
  | .update w => ({ l with weight := w }, none)
  | .train on => ({ l with training := on }, none)
  | .enable on => ({ l with enabled := on }, none)
  | .keepOrig on => ({ l with weightOrig := if on then some l.weight else none }, none)
  | .cache on => ({ l with cacheOn := on, cachedWeight := if on then l.cachedWeight else none }, none)
  | .call sl => ((l.quantWeight sl).2, some (l.quantWeight sl).1)

/-- The layer after some steps. -/
def Layer.run (l : Layer K) : List (Action K) → Layer K
  | [] => l
  | a :: as => (l.step a).1.run as

/-- `init_tensor_quant` (proxy/parameter_quant.py:64-80): the quantiser is built again, with new objects.  `register_parameter` does it when `layer.weight` is assigned
a parameter (nn/mixin/parameter.py:80-83), and so do other modules when they change the configuration.  A new slicer holds `[None]` (core/utils.py:93). -/
def Layer.reinit (l : Layer K) (q : Quantizer K) : Layer K :=
  { l with quant := q, slicers := setSlicers l.slicers q.slicerModules [none] }

/-- The kinds of layer that `get_quant_weights` tells apart. -/
inductive Kind where
  | linear
  | conv
  | convTranspose
  deriving DecidableEq

/-- The slow way of `get_quant_weights` (graph/gpxq.py:287-298): the weight is quantised whole, laid out as a matrix for each group, its columns permuted, and column
`i` is taken.  Result: for each group, an element for each of its rows. -/
def Layer.slowColumn (l : Layer K) (kind : Kind) (groups : ℕ) (actOrder : Bool) (perms : List (List ℕ)) (i : ℕ) : Option (NdTensor K) × Layer K :=
  match l.quantWeight none with
  | (none, l) => (none, l)
  | (some out, l) =>
    (((if kind = .convTranspose then out.value.transpose 1 0 else some out.value).bind fun w =>
      (w.reshape [w.shape.getD 0 0, (w.shape.drop 1).prod]).bind fun w =>
      (w.reshape [groups, w.shape.getD 0 0 / groups, w.shape.getD 1 0]).map fun w =>
        ⟨[groups, w.shape.getD 1 0], fun idx =>
          w.data [idx.getD 0 0, idx.getD 1 0, if actOrder then (perms.getD (idx.getD 0 0) []).getD i 0 else i]⟩), l)

/-- `get_quant_weights(i, i1, permutation_list)` (graph/gpxq.py:259-316) with `i1 + i` as `i`, for quantisers that are not group-wise. -/
def Layer.getQuantWeights (l : Layer K) (kind : Kind) (groups : ℕ) (actOrder : Bool) (perms : List (List ℕ)) (i : ℕ) : Option (NdTensor K) × Layer K :=
  if kind = .linear ∨ (kind = .conv ∧ groups ≤ 1) then
    let index := (perms.getD 0 []).getD i 0
    let sl : Slices :=
      if kind = .linear then [none, some ((index : ℤ), (index : ℤ) + 1)]
      else none :: (gpxqIndexToNd (l.weight.shape.drop 1) index).map fun (j : ℕ) => some ((j : ℤ), (j : ℤ) + 1)
    match l.quantWeight (some sl) with
    | (none, l) => (none, l)
    | (some out, l) =>
      ((out.value.reshape [out.value.shape.getD 0 0, (out.value.shape.drop 1).prod]).bind fun q =>
        if q.shape.getD 1 0 = 1 then some ⟨[1, q.shape.getD 0 0], fun idx => q.data [idx.getD 1 0, 0]⟩ else none, l)
  else l.slowColumn kind groups actOrder perms i

end SubTensor

end Brevitas
