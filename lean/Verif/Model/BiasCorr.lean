import Mathlib.Logic.Function.Basic
import Verif.Model.Shape

/-!
# Bias correction (`src/brevitas/graph/calibrate.py`)

`bias_correction_mode` and `_BiasCorrection`. Broadcasting of vectors of different lengths is left out (it is an exception here), as are
offloaded parameters. Names of modules are elements of any type `N`.
-/

namespace Brevitas

variable {K : Type*} [Field K] {N : Type*} [DecidableEq N]

/-- Exchange of the entries `0` and `d` of a shape or an index. -/
def swap0 (d : ℕ) (l : List ℕ) : List ℕ := (l.set 0 (l.getD d 0)).set d (l.getD 0 0)

/-- `Tensor.transpose(0, d)`. -/
def Tensor.transpose0 (t : Tensor K) (d : ℕ) : Tensor K :=
  let shape := swap0 d t.shape
  ⟨shape, (List.range shape.prod).map fun f => t.data.getD (Spec.ravel t.shape (swap0 d (unravel shape f))) 0⟩

/-- `_BiasCorrection.compute_mean`, calibrate.py:271-273: transposition, a matrix with one row per channel, and the mean of each row. -/
def computeMean (inp : Tensor K) (transposeDim : ℕ) : List K :=
  let inp := inp.transpose0 transposeDim
  let rows := inp.shape.getD 0 0
  let columns := inp.data.length / rows
  (List.range rows).map fun r => ((List.range columns).map fun j => inp.data.getD (r * columns + j) 0).sum / (columns : K)

/-- `_BiasCorrection.channel_dim`, calibrate.py:275-280. -/
def channelDim (isLinear : Bool) (rank : ℕ) : ℕ := if rank = 3 && isLinear then 2 else 1

/-- A layer with weights and bias, as bias correction sees it: the outputs before the bias is added, with (`true`) and without quantisation
of inputs and weights; the quantised bias, which may depend on the input; the bias. Linear layers add the bias along the last dimension,
convolutions (of batches) along dimension one (`inner_forward_impl` in nn/quant_linear.py, nn/quant_conv.py). Output quantisation is off. -/
structure CorrLayer (K : Type*) where
  isLinear : Bool
  product : Bool → Tensor K → Tensor K
  biasQuant : Tensor K → List K → List K
  bias : Option (List K)

/-- The dimension along which a layer adds its bias. -/
def CorrLayer.biasDim (L : CorrLayer K) (rank : ℕ) : ℕ := if L.isLinear then rank - 1 else 1

/-- Addition of a bias along a dimension. -/
def addBias (t : Tensor K) (d : ℕ) (b : List K) : Tensor K :=
  ⟨t.shape, t.data.zipIdx.map fun vi => vi.1 + b.getD ((unravel t.shape vi.2).getD d 0) 0⟩

/-- `QuantWBIOL.forward_impl`, nn/quant_layer.py:135-161, with output quantisation off, and with the other quantisers on or off.
A layer configured to return quantised tensors raises when they are off; such layers are left out. -/
def CorrLayer.forward (L : CorrLayer K) (quantised : Bool) (x : Tensor K) : Tensor K :=
  let out := L.product quantised x
  match L.bias with
  | none => out
  | some b => addBias out (L.biasDim out.shape.length) (if quantised then L.biasQuant x b else b)

/-- State of `_BiasCorrection` (`__init__`, calibrate.py:261-269). -/
structure BiasCorrection (N K : Type*) where
  iterations : N → ℕ
  correctionMap : N → Option (List K)
  floatMeanMap : N → Option (List K)

/-- A new `_BiasCorrection`. -/
def BiasCorrection.init : BiasCorrection N K := ⟨fun _ => 0, fun _ => none, fun _ => none⟩

/-- Entrywise operation on vectors; `none` if the lengths differ. -/
def zipVec (f : K → K → K) (a b : List K) : Option (List K) := if a.length = b.length then some (List.zipWith f a b) else none

/-- `_BiasCorrection.update_correction`, calibrate.py:289-293: the new entry of the map. -/
def updateCorrection (previous : Option (List K)) (error : List K) : Option (List K) :=
  match previous with
  | none => some error
  | some total => zipVec (· + ·) total error

/-- `forward_hook_wbiol`, calibrate.py:338-357, with `collect_float_mean` 282-287 and `compute_correct_bias` 315-322. `x` is the input of the layer; the output the hook receives was computed with quantisation on. The hook returns the output without
quantisation, which is what the next layer sees. -/
def BiasCorrection.hook (L : CorrLayer K) (name : N) (x : Tensor K) (st : BiasCorrection N K) : Option (BiasCorrection N K × Tensor K) :=
  let outFloat := L.forward false x
  match st.floatMeanMap name with
  | some _ => none
  | none =>
    let floatMean := computeMean outFloat (channelDim L.isLinear outFloat.shape.length)
    let output := L.forward true x
    let quantMean := computeMean output (channelDim L.isLinear output.shape.length)
    (zipVec (· - ·) floatMean quantMean).bind fun error =>
      (updateCorrection (st.correctionMap name) error).map fun total =>
        (⟨Function.update st.iterations name (st.iterations name + 1), Function.update st.correctionMap name (some total),
          Function.update st.floatMeanMap name none⟩, outFloat)

/-- `register_hook_to_wbiol`, calibrate.py:324-336, resets the iterations of all layers. -/
def BiasCorrection.enter (st : BiasCorrection N K) : BiasCorrection N K := { st with iterations := fun _ => 0 }

/-- `apply_correction`, calibrate.py:295-313, for one layer; `none` is an exception. -/
def BiasCorrection.apply (skipIfNoBias : Bool) (st : BiasCorrection N K) (name : N) (L : CorrLayer K) : Option (CorrLayer K) :=
  match st.correctionMap name with
  | none => some L
  | some total =>
    let correction := total.map fun v => v / (st.iterations name : K)
    match L.bias with
    | some b => (zipVec (· + ·) b correction).map fun b => { L with bias := some b }
    | none => if skipIfNoBias then some L else some { L with bias := some correction }

/-- Calls of layers (names and inputs) with hooks registered. -/
def BiasCorrection.calls (layers : N → CorrLayer K) : List (N × Tensor K) → BiasCorrection N K → Option (BiasCorrection N K)
  | [], st => some st
  | (name, x) :: cs, st => (st.hook (layers name) name x).bind fun r => BiasCorrection.calls layers cs r.1

/-- `with bias_correction_mode(model, enabled, skip_if_no_bias)`, calibrate.py:109-134, around calls of layers, for an object in state `st`:
the object afterwards, and each layer. -/
def biasCorrectionMode (enabled skipIfNoBias : Bool) (layers : N → CorrLayer K) (cs : List (N × Tensor K)) (st : BiasCorrection N K) :
    Option (BiasCorrection N K × (N → Option (CorrLayer K))) :=
  (if enabled then BiasCorrection.calls layers cs st.enter else some st).map fun st' => (st', fun n => st'.apply skipIfNoBias n (layers n))

/-- A forward pass of a sequential model with hooks registered: before each layer some other module (`between`) is called. -/
def BiasCorrection.forwardPass : List (N × CorrLayer K × (Tensor K → Tensor K)) → Tensor K → BiasCorrection N K →
    Option (BiasCorrection N K × Tensor K)
  | [], x, st => some (st, x)
  | (name, L, between) :: rest, x, st => (st.hook L name (between x)).bind fun r => BiasCorrection.forwardPass rest r.2 r.1

end Brevitas
