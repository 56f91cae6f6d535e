import Verif.Model.WbLayer

/-!
# Layers that combine tensors: `QuantEltwiseAdd`, `QuantCat`, `QuantEmbedding`

`src/brevitas/nn/quant_eltwise.py`, `src/brevitas/nn/quant_embedding.py`, `src/brevitas/nn/quant_layer.py:65-89` and, on tensors with a shape, `__add__` and `cat` of
`src/brevitas/quant_tensor/int_quant_tensor.py` and `embedding_handler` of `src/brevitas/quant_tensor/int_torch_handler.py`. Not modelled: the export mode, quant tensors that are
not integer ones, and the argument `max_norm` of embeddings.
-/

namespace Brevitas

namespace Combine

open NdTensor QuantConv WbLayer

variable {K : Type*} [Field K] [LinearOrder K] [IsStrictOrderedRing K] [FloorRing K]

/-- `check_scaling_factors_same`, int_quant_tensor.py:140-144: `none` is an exception. -/
def checkScales (q r : ShapedQT K) : Option Unit :=
  if q.training then some () else (allcloseTensor q.scale r.scale).bind fun close => if close then some () else none

/-- `check_zero_points_same`, int_quant_tensor.py:146-150. -/
def checkZeroPoints (q r : ShapedQT K) : Option Unit :=
  if q.training then some () else (allcloseTensor q.zeroPoint r.zeroPoint).bind fun close => if close then some () else none

/-- `__add__` of two integer quant tensors, int_quant_tensor.py:267-286, with broadcasting. -/
def addQT (q r : ShapedQT K) : Option (ShapedQT K) :=
  (checkScales q r).bind fun _ =>
  (bcOp (fun a b => a + b) q.value r.value).bind fun value =>
  (bcOp (fun a b => (a + b) / 2) q.scale r.scale).bind fun scale =>
  (bcOp (fun a b => a + b) q.zeroPoint r.zeroPoint).map fun zeroPoint =>
    ⟨value, scale, zeroPoint, addBitWidth q.signed r.signed q.bitWidth r.bitWidth, q.signed || r.signed, q.training || r.training⟩

/-- `__add__` of an integer quant tensor and a tensor, int_quant_tensor.py:289-298. -/
def addTensor (q : ShapedQT K) (t : NdTensor K) : Option (ShapedQT K) :=
  (bcOp (fun a b => a + b) q.value t).bind fun value =>
  (bcOp (fun a b => a / b) t q.scale).bind fun d =>
  (bcOp (fun a b => a - b) q.zeroPoint d).map fun zeroPoint => { q with value := value, zeroPoint := zeroPoint }

/-- `a + b` of tensors and quant tensors. A tensor plus a quant tensor goes through `__torch_function__`, which has no handler for the sum and unpacks the arguments
(int_quant_tensor.py:46-56). -/
def add : LayerOut K → LayerOut K → Option (LayerOut K)
  | .quant q, .quant r => (addQT q r).map .quant
  | .quant q, .plain t => (addTensor q t).map .quant
  | .plain t, .quant q => (bcOp (fun a b => a + b) t q.value).map .plain
  | .plain t, .plain u => (bcOp (fun a b => a + b) t u).map .plain

/-- Input and output quantiser of a `QuantInputOutputLayer` (nn/quant_layer.py:65-89). -/
structure IOLayer (K : Type*) where
  inputQuant : ActProxy K
  outputQuant : ActProxy K
  returnQuantTensor : Bool

/-- The exceptions of `QuantInputOutputLayer.__init__`: the RuntimeError of line 81 and the AttributeError of lines 80 and 84. -/
inductive InitError where
  | enableOnlyOne
  | attributeError
  deriving DecidableEq

/-- `self.act_quant.is_quant_enabled`. The mixins of the class register `input_quant` and `output_quant` (nn/mixin/act.py:21-50); there is no `act_quant`. -/
def actQuantEnabled (_ : IOLayer K) : Except InitError Bool := .error .attributeError

/-- `QuantInputOutputLayer.__init__`, nn/quant_layer.py:68-85. -/
def IOLayer.init (inputQuant outputQuant : ActProxy K) (tieInputOutputQuant returnQuantTensor : Bool) : Except InitError (IOLayer K) :=
  let l : IOLayer K := ⟨inputQuant, outputQuant, returnQuantTensor⟩
  if tieInputOutputQuant then
    ((if l.inputQuant.isEnabled then actQuantEnabled l else .ok false) : Except InitError Bool).bind fun both =>
    if both then .error .enableOnlyOne
    else
      let l := if l.inputQuant.isEnabled then { l with outputQuant := l.inputQuant } else l
      (actQuantEnabled l).map fun act => if act then { l with inputQuant := l.outputQuant } else l
  else .ok l

/-- `requires_export_handler` of `QuantInputOutputLayer`, nn/quant_layer.py:87-89. -/
def IOLayer.requiresExportHandler (l : IOLayer K) : Except InitError Bool :=
  if l.inputQuant.isEnabled then .ok true else actQuantEnabled l

/-- `QuantEltwiseAdd.forward`, nn/quant_eltwise.py:33-46. -/
def eltwiseAdd (l : IOLayer K) (input other : LayerOut K) : Except LayerError (LayerOut K) :=
  (l.inputQuant.forward input).bind fun quantInput =>
  (l.inputQuant.forward other).bind fun quantOther =>
  (torchOp (add quantInput quantOther)).bind fun output =>
  (l.outputQuant.forward output).bind fun quantOutput =>
  packOutput l.returnQuantTensor quantOutput

/-- `QuantCat.forward`, nn/quant_eltwise.py:66-79. `QuantTensor` is the base class (quant_tensor/base_quant_tensor.py:10-93), which has no attribute `cat`. -/
def quantCat (l : IOLayer K) (tensors : List (LayerOut K)) (_dim : ℤ) : Except LayerError (LayerOut K) :=
  (tensors.mapM l.inputQuant.forward).bind fun _ => .error .other

/-! ### `torch.cat` of quant tensors -/

/-- `check_bit_width_same` and `check_sign_same`, int_quant_tensor.py:152-158. -/
def checkWidthAndSign (q r : ShapedQT K) : Option Unit :=
  if allclose (q.bitWidth : K) (r.bitWidth : K) && q.signed == r.signed then some () else none

/-- `sum(...) / len(tensors)` of metadata, int_quant_tensor.py:224-225. -/
def average (first : NdTensor K) (rest : List (NdTensor K)) : Option (NdTensor K) :=
  (rest.foldlM (fun a b => bcOp (fun x y => x + y) a b) first).map fun t => t.map fun x => x / ((rest.length + 1 : ℕ) : K)

/-- `IntQuantTensor.cat`, int_quant_tensor.py:207-242, of integer quant tensors. The bit width of a concatenation in training is that of the first tensor here: the code averages
the widths, which line 219 has found to be the same. -/
def catTensors (tensors : List (ShapedQT K)) (dim : ℤ) : Option (ShapedQT K) :=
  match tensors with
  | [] => none
  | [q] => some q
  | first :: rest =>
    (rest.mapM fun q => (checkScales first q).bind fun _ => (checkZeroPoints first q).bind fun _ => checkWidthAndSign first q).bind fun _ =>
    (NdTensor.cat dim (tensors.map ShapedQT.value)).bind fun value =>
    if tensors.any ShapedQT.training then
      (average first.scale (rest.map ShapedQT.scale)).bind fun scale =>
      (average first.zeroPoint (rest.map ShapedQT.zeroPoint)).map fun zeroPoint => ⟨value, scale, zeroPoint, first.bitWidth, first.signed, true⟩
    else some ⟨value, first.scale, first.zeroPoint, first.bitWidth, first.signed, false⟩

/-! ### Embeddings -/

/-- `F.embedding(input, weight)` of torch: the rows of the weight at the indices; an index that is not a row is an exception. -/
def embed (input : NdTensor ℕ) (weight : NdTensor K) : Option (NdTensor K) :=
  match weight.shape with
  | [rows, dim] =>
    if (indices input.shape).all fun idx => input.data idx < rows then
      some ⟨input.shape ++ [dim], fun idx => weight.data [input.data (idx.take input.shape.length), idx.getD input.shape.length 0]⟩
    else none
  | _ => none

/-- `embedding_handler`, int_torch_handler.py:75-92, and `F.embedding` of a plain weight. -/
def embedding (input : NdTensor ℕ) : LayerOut K → Option (LayerOut K)
  | .plain w => (embed input w).map .plain
  | .quant w => (embed input w.value).bind fun out =>
    if 1 < w.scale.shape.prod ∨ 1 < w.zeroPoint.shape.prod then none
    else some (.quant { w with value := out })

/-- `QuantEmbedding` (nn/quant_embedding.py:21-52), without `max_norm`; `padding_idx`, `scale_grad_by_freq` and `sparse` only matter to gradients. -/
structure Embedding (K : Type*) where
  weight : NdTensor K
  weightQuant : WeightProxy K
  returnQuantTensor : Bool

/-- `QuantEmbedding.forward`, nn/quant_embedding.py:62-78. -/
def Embedding.forward (l : Embedding K) (input : NdTensor ℕ) : Except LayerError (LayerOut K) :=
  (l.weightQuant.forward l.weight).bind fun quantWeight =>
  (torchOp (embedding input quantWeight)).bind fun out =>
  packOutput l.returnQuantTensor out

end Combine

end Brevitas
