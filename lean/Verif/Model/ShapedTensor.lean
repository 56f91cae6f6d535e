import Verif.Model.QuantTensor
import Verif.Spec.Broadcast

/-!
# Integer quant tensors with a shape, and the functions that keep their metadata

`src/brevitas/quant_tensor/int_quant_tensor.py:62-185` and `src/brevitas/quant_tensor/torch_handler.py`. Scales and zero points are tensors that
broadcast against the value; the bit width is the same for all the elements.
-/

namespace Brevitas

open NdTensor

variable {K : Type*} [Field K] [LinearOrder K] [IsStrictOrderedRing K] [FloorRing K]

/-- Fields of `IntQuantTensor`, base_quant_tensor.py:95-101. -/
structure ShapedQT (K : Type*) where
  value : NdTensor K
  scale : NdTensor K
  zeroPoint : NdTensor K
  bitWidth : ℕ
  signed : Bool
  training : Bool

/-- `_pre_round_int_value`, int_quant_tensor.py:62-73, `value / scale + zero_point` with broadcasting. -/
def ShapedQT.preRound (q : ShapedQT K) : Option (NdTensor K) :=
  (bcOp (fun a b => a / b) q.value q.scale).bind fun d => bcOp (fun a b => a + b) d q.zeroPoint

/-- `is_valid`, int_quant_tensor.py:75-98: the checks of `IntQT.isValid` on the elements of `_pre_round_int_value`. -/
def ShapedQT.isValid (q : ShapedQT K) (atol : K) : Option Bool :=
  q.preRound.bind fun p => IntQT.isValid ⟨(indices p.shape).map p.data, 1, 0, q.bitWidth, q.signed, q.training⟩ atol

/-- `int()`, int_quant_tensor.py:110-128: shape and rounded elements. -/
def ShapedQT.int (q : ShapedQT K) (atol : K) : Option (List ℕ × (List ℕ → ℤ)) :=
  match q.isValid atol with
  | some true => q.preRound.map fun p => (p.shape, fun idx => torchRound (p.data idx))
  | _ => none

/-- The metadata of a transposed or permuted tensor, int_quant_tensor.py:171-175 and 180-184: permuted in the same way if it has the rank of the
value, otherwise kept. -/
def metaFollow (rank : ℕ) (f : NdTensor K → Option (NdTensor K)) (tm : NdTensor K) : Option (NdTensor K) :=
  if rank = tm.shape.length then f tm else some tm

/-- `permute`, int_quant_tensor.py:178-185. -/
def ShapedQT.permute (dims : List ℕ) (q : ShapedQT K) : Option (ShapedQT K) :=
  (q.value.permute dims).bind fun v =>
    (metaFollow v.shape.length (NdTensor.permute dims) q.scale).bind fun s =>
      (metaFollow v.shape.length (NdTensor.permute dims) q.zeroPoint).map fun z => { q with value := v, scale := s, zeroPoint := z }

/-- `transpose`, int_quant_tensor.py:169-176. -/
def ShapedQT.transpose (i j : ℕ) (q : ShapedQT K) : Option (ShapedQT K) :=
  (q.value.transpose i j).bind fun v =>
    (metaFollow v.shape.length (NdTensor.transpose i j) q.scale).bind fun s =>
      (metaFollow v.shape.length (NdTensor.transpose i j) q.zeroPoint).map fun z => { q with value := v, scale := s, zeroPoint := z }

/-- `reshape`, `view` and (for the flattened shape) `flatten`, int_quant_tensor.py:160-167. -/
def ShapedQT.reshape (shape : List ℕ) (q : ShapedQT K) : Option (ShapedQT K) :=
  (q.value.reshape shape).map fun v => { q with value := v }

/-- `quant_invariant_handler`, torch_handler.py:32-34; `none` if the function raises. -/
def quantInvariantHandler (fn : NdTensor K → Option (NdTensor K)) (inp : ShapedQT K) : Option (ShapedQT K) :=
  (fn inp.value).map fun outValue => { inp with value := outValue }

/-- `relu_qt_handler`, torch_handler.py:58-60. -/
def ShapedQT.relu (q : ShapedQT K) : Option (ShapedQT K) := quantInvariantHandler (fun v => some (v.map fun x => max x 0)) q

/-- `hardtanh_qt_handler`, torch_handler.py:68-70. -/
def ShapedQT.hardtanh (minVal maxVal : K) (q : ShapedQT K) : Option (ShapedQT K) :=
  quantInvariantHandler (fun v => some (v.map fun x => max minVal (min x maxVal))) q

/-- `relu6_qt_handler`, torch_handler.py:63-65. -/
def ShapedQT.relu6 (q : ShapedQT K) : Option (ShapedQT K) :=
  quantInvariantHandler (fun v => some (v.map fun x => min (max x 0) 6)) q

/-- `dropout_handler`, torch_handler.py:78-80 (also `dropout2d`, `dropout3d` with masks constant on channels): in training the elements kept by the mask
are divided by `1 - p`, the others are zero. -/
def ShapedQT.dropout (p : K) (training : Bool) (keep : List ℕ → Bool) (q : ShapedQT K) : Option (ShapedQT K) :=
  quantInvariantHandler (fun v => some (if training then ⟨v.shape, fun idx => if keep idx then v.data idx / (1 - p) else 0⟩ else v)) q

/-- `max_pool*d_handler`, `adaptive_max_pool*d_handler`, torch_handler.py:93-120, and `interpolate_handler` in mode `nearest`, torch_handler.py:123-142. -/
def ShapedQT.maxPool (lead : ℕ) (outSpatial : List ℕ) (window : List ℕ → List (List ℕ)) (q : ShapedQT K) : Option (ShapedQT K) :=
  quantInvariantHandler (fun v => some (v.maxPool lead outSpatial window)) q

/-- `pixel_shuffle_handler`, torch_handler.py:154-156. -/
def ShapedQT.pixelShuffle (r : ℕ) (q : ShapedQT K) : Option (ShapedQT K) := quantInvariantHandler (fun v => v.pixelShuffle r) q

/-- `pad_handler`, torch_handler.py:52-55, for the last dimension. -/
def ShapedQT.pad (left right : ℕ) (v : K) (q : ShapedQT K) : Option (ShapedQT K) :=
  quantInvariantHandler (fun t => some (t.padLast left right v)) q

end Brevitas
