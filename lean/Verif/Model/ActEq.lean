import Verif.Model.Equalize
import Verif.Spec.Broadcast

/-!
# Layerwise activation equalisation (`src/brevitas/graph/equalize.py`, `src/brevitas/nn/equalized_layer.py`)

Tensors have a shape (`Verif/Spec/Tensor.lean`); `none` is an exception.  The parameters are real numbers.  Attention is a linear
layer here: its three inputs are one tensor, and what follows the input projection is not modelled.
-/

namespace Brevitas.ActEq

open Net Equalize

variable {K : Type*}

/-- Linear layers, and convolutions with `d` spatial dimensions. -/
inductive LayerType
  | linear
  | conv (d : ℕ)
  deriving DecidableEq

/-- A layer applied to tensors with a shape.  `position shape p` is the index, without channel, of position number `p` of a tensor of
that shape; `number shape idx` the number of an index of the output of a tensor of that shape.  `outShape` gives the shape of the output. -/
structure TensorLayer (K : Type*) where
  type : LayerType
  layer : Layer K
  position : List ℕ → ℕ → List ℕ
  number : List ℕ → List ℕ → ℕ
  outShape : List ℕ → List ℕ

/-- The dimension of the channels, as documented by torch: the last one for a linear layer, the one before the spatial dimensions for a
convolution, with or without a batch. -/
def LayerType.channelDim (t : LayerType) (rank : ℕ) : ℕ :=
  match t with
  | .linear => rank - 1
  | .conv d => rank - 1 - d

/-- The ranks torch accepts. -/
def LayerType.rankOK (t : LayerType) (rank : ℕ) : Prop :=
  match t with
  | .linear => 1 ≤ rank
  | .conv d => rank = d + 1 ∨ rank = d + 2

instance (t : LayerType) (rank : ℕ) : Decidable (t.rankOK rank) := by
  cases t <;> unfold LayerType.rankOK <;> infer_instance

/-- The number of input channels of a layer. -/
def inputChannels (L : Layer K) : ℕ :=
  match L.kind with
  | .dense => L.inCh
  | .depthwise => L.outCh
  | .grouped n => (L.outCh / n) * L.inCh
  | .norm => L.outCh

/-- What the layer does to a tensor of some shape, once accepted. -/
def TensorLayer.apply [Field K] [LinearOrder K] (T : TensorLayer K) (x : NdTensor K) : NdTensor K :=
  let dim := T.type.channelDim x.shape.length
  ⟨T.outShape x.shape, fun idx =>
    T.layer.eval (fun c p => x.data ((T.position x.shape p).insertIdx dim c)) (idx.getD dim 0) (T.number x.shape (idx.eraseIdx dim))⟩

/-- `layer(x)`: raises unless the rank is accepted and the channels match. -/
def TensorLayer.forward [Field K] [LinearOrder K] (T : TensorLayer K) (x : NdTensor K) : Option (NdTensor K) :=
  if T.type.rankOK x.shape.length ∧ x.shape.getD (T.type.channelDim x.shape.length) 0 = inputChannels T.layer then some (T.apply x)
  else none

/-! ## Calibration -/

section Stats
variable [Field K] [LinearOrder K] [IsStrictOrderedRing K] [FloorRing K]

/-- `self.scale_fn(x, dim=batch_dim)`, equalize.py:994-995.  `batch_dim` is 0: regions have no `batch_first` (lines 1051-1053) and tensors have
no names. -/
def reduceBatch (stat : StatKind) (x : NdTensor K) : Option (NdTensor K) :=
  match x.shape with
  | [] => none
  | n :: shape => some ⟨shape, fun idx => stat.fn ((List.range n).map fun b => x.data (b :: idx))⟩

/-- The update of `float_act_map` for one input, equalize.py:996-999 (`torch.max` of tensors of different shapes raises, unless they can be
broadcast, which is not modelled). -/
def hookStep (stat : StatKind) (acc : Option (NdTensor K)) (x : NdTensor K) : Option (Option (NdTensor K)) :=
  match reduceBatch stat x with
  | none => none
  | some s =>
    match acc with
    | none => some (some s)
    | some a => if a.shape = s.shape then some (some ⟨a.shape, fun idx => max (a.data idx) (s.data idx)⟩) else none

/-- The entry of `float_act_map` after some inputs, equalize.py:972-999: `some none` if the layer has not been called. -/
def hookAll (stat : StatKind) : Option (NdTensor K) → List (NdTensor K) → Option (Option (NdTensor K))
  | acc, [] => some acc
  | acc, x :: xs => (hookStep stat acc x).bind fun acc => hookAll stat acc xs

/-- The calibrated statistics, `none` if something raised, `KeyError` in equalize.py:1066 included. -/
def calibrate (stat : StatKind) (batches : List (NdTensor K)) : Option (NdTensor K) := (hookAll stat none batches).bind id

/-- `_get_act_axis`, equalize.py:311-327. -/
def actAxis : LayerType → ℤ
  | .linear => -1
  | .conv _ => 0

/-- Row `c` of `transpose(act_val, act_axis)` reshaped to two dimensions, equalize.py:522-527. -/
def actRow (act : NdTensor K) (k c : ℕ) : List K :=
  (NdTensor.indices (act.shape.eraseIdx k)).map fun idx => act.data (idx.insertIdx k c)

end Stats

/-! ## Equalisation of one layer -/

/-- The region of a layer, equalize.py:1041-1042. -/
def layerRegion (L : Layer K) : Region := ⟨[], [(0, ⟨0, sinkChannels L, 0⟩)]⟩

/-- A `ScaleBias` without bias: its weight and the shape it is viewed with. -/
structure ScaleModule (K : Type*) where
  weight : ℕ → K
  runtimeShape : List ℕ

/-- `create_mul_node`, equalize.py:962-970, with `batch_dim = 0`; `k` is the axis, counted from the front. -/
def createMul (scale : ℕ → K) (shape : List ℕ) (k : ℕ) : ScaleModule K where
  weight := scale
  runtimeShape := 1 :: (List.replicate shape.length 1).set k (shape.getD k 0)

/-- `ScaleBias.forward` without bias, nn/quant_scale_bias.py:34-38.  The view has at most one dimension that is not one, so that the sum of
the coordinates is the coordinate along that dimension. -/
def ScaleModule.forward [Mul K] (m : ScaleModule K) (x : NdTensor K) : Option (NdTensor K) :=
  NdTensor.bcOp (· * ·) x ⟨m.runtimeShape, fun idx => m.weight idx.sum⟩

/-- The module that takes the place of a layer. -/
structure Equalized (K : Type*) where
  scale : Option (ScaleModule K)
  layer : TensorLayer K

/-- `EqualizedModule.forward`, nn/equalized_layer.py:17-43; a layer that is not equalised is left in its place. -/
def Equalized.forward [Field K] [LinearOrder K] (E : Equalized K) (x : NdTensor K) : Option (NdTensor K) :=
  match E.scale with
  | none => E.layer.forward x
  | some m => (m.forward x).bind E.layer.forward

/-- The factor of channel `c`, equalize.py:484-494, 516-553: the range of the activations takes the place of that of the sources. -/
noncomputable def actFactor (stat : StatKind) (α : ℝ) (L : Layer ℝ) (act : NdTensor ℝ) (k c : ℕ) : ℝ :=
  factor α (stat.fn (actRow act k c)) (sinksRange ⟨false, stat, .vaiq⟩ (fun _ => L) (layerRegion L) c)

/-- `_cross_layer_equalization` for the region of one layer and its calibrated statistics, with `insert_mul_node`, equalize.py:386-602 and
1070-1085.  `none` is the exception of `transpose` on a tensor of rank 0. -/
noncomputable def equalizeLayer (stat : StatKind) (α : ℝ) (T : TensorLayer ℝ) (act : NdTensor ℝ) : Option (Equalized ℝ) :=
  if (inputAxisIsOutput T.layer.kind).isNone then some ⟨none, T⟩
  else
    match NdTensor.dimOf act.shape.length (actAxis T.type) with
    | none => none
    | some k =>
      if act.shape.getD k 0 ≠ maxShapeSinks (layerRegion T.layer) then some ⟨none, T⟩
      else
        let f := actFactor stat α T.layer act k
        some ⟨some (createMul (fun c => (f c)⁻¹) act.shape k), { T with layer := scaleIn f ⟨0, sinkChannels T.layer, 0⟩ T.layer }⟩

/-- `activation_equalization_mode(layerwise=True)` on one layer, equalize.py:1048-1079: it runs on the calibration inputs, then is equalised. -/
noncomputable def layerwise (stat : StatKind) (α : ℝ) (T : TensorLayer ℝ) (batches : List (NdTensor ℝ)) : Option (Equalized ℝ) :=
  (calibrate stat batches).bind fun act => equalizeLayer stat α T act

/-- `activation_equalization_mode.__exit__`, equalize.py:230-233: `apply` runs, and raises or not; then `True` is returned. -/
def modeExit {ε : Type*} (apply : Option ε) : Except ε Bool :=
  match apply with
  | some e => .error e
  | none => .ok true

end Brevitas.ActEq
