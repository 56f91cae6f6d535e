import Verif.Model.IntQuant
import Verif.Model.BinTern

/-!
# Straight-through estimators (`src/brevitas/ops/autograd_ste_ops.py`, `src/brevitas/csrc/autograd_ste_ops.cpp`,
`src/brevitas/function/ops_ste.py`)

Elementwise functions: the value at an element of the input, and the gradient that flows back to it.
-/

namespace Brevitas

variable {K : Type*} [Field K] [LinearOrder K] [IsStrictOrderedRing K] [FloorRing K]

/-- The wrappers of src/brevitas/function/ops_ste.py:47-370, with their scalar or tensor bounds (at the element). -/
inductive SteOp (K : Type*)
  | round
  | ceil
  | floor
  | roundToZero
  | dpuRound
  | binarySign
  | ternarySign
  | scalarClamp (minVal maxVal : K)
  | scalarClampMin (minVal : K)
  | tensorClamp (minVal maxVal : K)
  | tensorClampInplace (minVal maxVal : K)
  | absBinarySignGrad

/-- An elementwise `torch.autograd.Function`: forward value, content of the input tensor afterwards, and gradient returned for the input
element `x` given the gradient of the output. The gradients for the bounds are `None` in all of them. -/
structure AutogradFn (K : Type*) where
  forward : K → K
  inputAfter : K → K
  backward : K → K → K

/-- The Python autograd functions, autograd_ste_ops.py: ScalarClampSteFn 46-71, ScalarClampMinSteFn 74-99, TensorClampSteFn 102-130,
InplaceTensorClampSteFn 133-162, RoundToZeroSteFn 165-192, DPURoundSteFn 195-218, CeilSteFn 221-244, FloorSteFn 247-270,
BinarySignSteFn 273-302, TernarySignSteFn 305-328, RoundSteFn 331-355, AbsBinarySignGradFn 358-384. The sign saved for the backward pass of
the last one is -1 or 1, exact in int8. -/
def SteOp.py : SteOp K → AutogradFn K
  | .round => ⟨fun x => (torchRound x : ℤ), id, fun _ g => g⟩
  | .ceil => ⟨fun x => (torchCeil x : ℤ), id, fun _ g => g⟩
  | .floor => ⟨fun x => (torchFloor x : ℤ), id, fun _ g => g⟩
  | .roundToZero => ⟨fun x => (Brevitas.roundToZero x : ℤ), id, fun _ g => g⟩
  | .dpuRound => ⟨fun x => (Brevitas.dpuRound x : ℤ), id, fun _ g => g⟩
  | .binarySign => ⟨Brevitas.binarySign, id, fun _ g => g⟩
  | .ternarySign => ⟨fun x => (torchSign x : ℤ), id, fun _ g => g⟩
  | .scalarClamp lo hi => ⟨fun x => torchClamp x lo hi, id, fun _ g => g⟩
  | .scalarClampMin lo => ⟨fun x => clampMin x lo, id, fun _ g => g⟩
  | .tensorClamp lo hi => ⟨fun x => Brevitas.tensorClamp x lo hi, id, fun _ g => g⟩
  | .tensorClampInplace lo hi =>
    ⟨fun x => Brevitas.tensorClampInplace x lo hi, fun x => Brevitas.tensorClampInplace x lo hi, fun _ g => g⟩
  | .absBinarySignGrad => ⟨fun x => |x|, id, fun x g => Brevitas.binarySign x * g⟩

/-- `BinarySignSteFn::forward` of the native backend, autograd_ste_ops.cpp:129-134: difference of two masks. -/
def cppBinarySign (x : K) : K := (if x ≥ 0 then 1 else 0) - (if x < 0 then 1 else 0)

/-- The native backend, src/brevitas/csrc/autograd_ste_ops.cpp:14-209. -/
def SteOp.cpp : SteOp K → AutogradFn K
  | .round => ⟨fun x => (torchRound x : ℤ), id, fun _ g => g⟩
  | .ceil => ⟨fun x => (torchCeil x : ℤ), id, fun _ g => g⟩
  | .floor => ⟨fun x => (torchFloor x : ℤ), id, fun _ g => g⟩
  | .roundToZero => ⟨fun x => (torchSign x : ℤ) * (torchFloor |x| : ℤ), id, fun _ g => g⟩
  | .dpuRound =>
    ⟨fun x => if x < 0 ∧ x - (torchFloor x : ℤ) = 1 / 2 then (torchCeil x : ℤ) else (torchRound x : ℤ), id, fun _ g => g⟩
  | .binarySign => ⟨cppBinarySign, id, fun _ g => g⟩
  | .ternarySign => ⟨fun x => (torchSign x : ℤ), id, fun _ g => g⟩
  | .scalarClamp lo hi => ⟨fun x => torchClamp x lo hi, id, fun _ g => g⟩
  | .scalarClampMin lo => ⟨fun x => clampMin x lo, id, fun _ g => g⟩
  | .tensorClamp lo hi =>
    ⟨fun x =>
      let output := if x > hi then hi else x
      if output < lo then lo else output, id, fun _ g => g⟩
  | .tensorClampInplace lo hi => ⟨fun x => max (min x hi) lo, fun x => max (min x hi) lo, fun _ g => g⟩
  | .absBinarySignGrad => ⟨fun x => |x|, id, fun x g => cppBinarySign x * g⟩

/-- The ONNX graphs emitted by the `symbolic` methods of autograd_ste_ops.py (same line ranges as `SteOp.py`); `none` when the method
raises. `Clip` is `min(max(x, lo), hi)` and `Round` rounds half to even (ONNX documentation). -/
def SteOp.onnx : SteOp K → Option (K → K)
  | .round => some fun x => (torchRound x : ℤ)
  | .ceil => some fun x => (torchCeil x : ℤ)
  | .floor => some fun x => (torchFloor x : ℤ)
  | .roundToZero => some fun x => (torchSign x : ℤ) * (torchFloor |x| : ℤ)
  | .dpuRound => none
  | .binarySign => some fun x => (if x ≥ 0 then 1 else 0) - (if x < 0 then 1 else 0)
  | .ternarySign => some fun x => (torchSign x : ℤ)
  | .scalarClamp lo hi => some fun x => min (max x lo) hi
  | .scalarClampMin lo => some fun x => max x lo
  | .tensorClamp lo hi => some fun x =>
    let y := if x > hi then hi else x
    if y < lo then lo else y
  | .tensorClampInplace lo hi => some fun x =>
    let y := if x > hi then hi else x
    if y < lo then lo else y
  | .absBinarySignGrad => some fun x => |x|

/-! ### Gradients of the quantisers

A value with the coefficient by which the gradient of that value is multiplied on its way to one fixed input (the partial derivative that
autograd computes). Autograd is trusted to follow the usual rules for the arithmetic operations and for `torch.where`. -/

/-- Value and coefficient. -/
structure Dual (K : Type*) where
  val : K
  der : K

def Dual.const (c : K) : Dual K := ⟨c, 0⟩
def Dual.add (a b : Dual K) : Dual K := ⟨a.val + b.val, a.der + b.der⟩
def Dual.sub (a b : Dual K) : Dual K := ⟨a.val - b.val, a.der - b.der⟩
def Dual.neg (a : Dual K) : Dual K := ⟨-a.val, -a.der⟩
def Dual.mul (a b : Dual K) : Dual K := ⟨a.val * b.val, a.der * b.val + a.val * b.der⟩
def Dual.div (a b : Dual K) : Dual K := ⟨a.val / b.val, (a.der * b.val - a.val * b.der) / (b.val * b.val)⟩

/-- An elementwise autograd function applied to a value. -/
def AutogradFn.dual (f : AutogradFn K) (a : Dual K) : Dual K := ⟨f.forward a.val, f.backward a.val a.der⟩

/-- `tensor_clamp` (src/brevitas/function/ops.py:74-98) under autograd: `torch.where` passes the gradient to the selected branch. -/
def tensorClampDual (x minVal maxVal : Dual K) : Dual K :=
  let out := if x.val > maxVal.val then maxVal else x
  if out.val < minVal.val then minVal else out

/-- `tensor_clamp_ste`: gradients go to `x` only. -/
def tensorClampSteDual (x minVal maxVal : Dual K) : Dual K :=
  (SteOp.py (.tensorClamp minVal.val maxVal.val)).dual x

/-- `IntQuant.forward`, src/brevitas/core/quant/int_base.py:67-91, under autograd, with a straight-through rounding `op` and either
clamping. `minInt` and `maxInt` carry the gradient of a learned bit width. -/
def intQuantDual (op : SteOp K) (clampSte : Bool) (minInt maxInt scale zeroPoint x : Dual K) : Dual K :=
  let y := x.div scale
  let y := y.add zeroPoint
  let y := op.py.dual y
  let y := if clampSte then tensorClampSteDual y minInt maxInt else tensorClampDual y minInt maxInt
  let y := y.sub zeroPoint
  y.mul scale

/-- `BinaryQuant.forward`, src/brevitas/core/quant/binary.py:60-64, under autograd. -/
def binaryQuantDual (scale x : Dual K) : Dual K := ((SteOp.py .binarySign).dual x).mul scale

/-- `ClampedBinaryQuant.forward` with `TensorClamp`, binary.py:120-125, under autograd. -/
def clampedBinaryQuantDual (scale x : Dual K) : Dual K :=
  let y := tensorClampDual x scale.neg scale
  ((SteOp.py .binarySign).dual y).mul scale

/-- `TernaryQuant.forward`, src/brevitas/core/quant/ternary.py:62-69, under autograd: the mask is a comparison and carries no gradient. -/
def ternaryQuantDual (threshold : K) (scale x : Dual K) : Dual K :=
  let mask : K := if |x.val| > threshold * scale.val then 1 else 0
  ((Dual.const mask).mul ((SteOp.py .ternarySign).dual x)).mul scale

/-- What is recorded for `round_ste` while a model is being traced (`torch._C._get_tracing_state()`, function/ops_ste.py:65-66):
`torch.round`, whose gradient is zero. -/
def tracedRoundDual (a : Dual K) : Dual K := ⟨(torchRound a.val : ℤ), 0⟩

/-- Gradient of the scale of a whole tensor: sum over the elements of output gradient times coefficient. -/
def scaleGrad (op : SteOp K) (clampSte : Bool) (minInt maxInt scale zeroPoint : K) (xgs : List (K × K)) : K :=
  (xgs.map fun xg => xg.2 *
    (intQuantDual op clampSte (.const minInt) (.const maxInt) ⟨scale, 1⟩ (.const zeroPoint) (.const xg.1)).der).sum

end Brevitas
