import Verif.Spec.Index
import Verif.Model.Ops

/-!
# Group-wise reshaping

`src/brevitas/core/function_wrapper/shape.py:155-203`, `src/brevitas/utils/torch_utils.py:107-115`,
`src/brevitas/quant/solver/parameter.py:111-158`, `src/brevitas/quant_tensor/groupwise_int_quant_tensor.py:60-86`,
`src/brevitas/graph/gpxq.py:299-309`.
-/

namespace Brevitas

open Spec

variable {K : Type*} [Field K]

/-- A contiguous tensor: shape and elements in row-major order. -/
structure Tensor (K : Type*) where
  /-- sizes of the dimensions -/
  shape : List ℕ
  /-- elements in row-major order -/
  data : List K
deriving DecidableEq, Repr

/-- The number of elements agrees with the shape. -/
def Tensor.WF (t : Tensor K) : Prop := t.data.length = t.shape.prod

/-- The element at a multi-index. -/
def Tensor.at (t : Tensor K) (idx : List ℕ) : Option K := t.data[ravel t.shape idx]?

/-- Multi-index of a row-major position (used to define `torch.nn.functional.pad`). -/
def unravel : List ℕ → ℕ → List ℕ
  | [], _ => []
  | _ :: ds, f => f / ds.prod :: unravel ds (f % ds.prod)

/-- Position meant by the Python index `i` in a list of length `n`; an `IndexError` is not modelled (callers pass valid indices). -/
def pyIndex (n : ℕ) (i : ℤ) : ℕ := if i < 0 then (i + n).toNat else i.toNat

/-- Python `list.insert(i, v)`. -/
def pyInsert (l : List ℕ) (i : ℤ) (v : ℕ) : List ℕ := l.insertIdx (if i < 0 then (i + l.length).toNat else min i.toNat l.length) v

/-- `padding`, src/brevitas/utils/torch_utils.py:107-115. -/
def padding (shape : List ℕ) (groupSize : ℕ) (groupDim : ℤ) : List ℕ :=
  let padding := List.replicate (2 * shape.length) 0
  let size := shape.getD (pyIndex shape.length groupDim) 0
  let padding := if size % groupSize ≠ 0 then padding.set (pyIndex padding.length (2 * groupDim)) (groupSize - size % groupSize) else padding
  padding.reverse

/-- `torch.nn.functional.pad(x, pads, mode='constant', value=0.)`: entries `2k` and `2k + 1` of `pads` are the amounts before and after the
`k`-th dimension counted from the last one. -/
def torchPad (t : Tensor K) (pads : List ℕ) : Tensor K :=
  let n := t.shape.length
  let left : ℕ → ℕ := fun d => pads.getD (2 * (n - 1 - d)) 0
  let right : ℕ → ℕ := fun d => pads.getD (2 * (n - 1 - d) + 1) 0
  let newShape := t.shape.zipIdx.map fun sd => left sd.2 + sd.1 + right sd.2
  ⟨newShape, (List.range newShape.prod).map fun f =>
    let idx := (unravel newShape f).zipIdx
    if idx.all fun di => left di.2 ≤ di.1 && di.1 < left di.2 + t.shape.getD di.2 0 then
      (t.at (idx.map fun di => di.1 - left di.2)).getD 0
    else 0⟩

/-- `Tensor.view(shape)` of a contiguous tensor; `none` when the number of elements differs. -/
def Tensor.view (t : Tensor K) (shape : List ℕ) : Option (Tensor K) :=
  if shape.prod = t.shape.prod then some ⟨shape, t.data⟩ else none

/-- `Tensor.flatten(start, start + 1)` of a contiguous tensor, for a non-negative `start`: merges two neighbouring dimensions. -/
def Tensor.flatten2 (t : Tensor K) (start : ℕ) : Tensor K :=
  ⟨t.shape.take start ++ (t.shape.getD start 1 * t.shape.getD (start + 1) 1) :: t.shape.drop (start + 2), t.data⟩

/-- `expanded_groupwise_shape`, src/brevitas/quant/solver/parameter.py:135-151, for one tracked parameter and a non-negative group dimension
(`group_dim` is 0 or 1 there, parameter.py:153-158). -/
def expandedGroupwiseShape (shape : List ℕ) (groupSize groupDim : ℕ) : List ℕ :=
  let size := shape.set groupDim ((shape.getD groupDim 0 + groupSize - 1) / groupSize)
  pyInsert size ((groupDim : ℤ) + 1) groupSize

/-- `scaling_shape` for group-wise scaling, parameter.py:119-125. -/
def groupScalingShape (shape : List ℕ) (groupSize groupDim : ℕ) : List ℕ :=
  (expandedGroupwiseShape shape groupSize groupDim).set (groupDim + 1) 1

/-- `reshaped_groupwise_shape`, parameter.py:127-133. -/
def reshapedGroupwiseShape (shape : List ℕ) (groupSize groupDim : ℕ) : List ℕ :=
  let newShape := (expandedGroupwiseShape shape groupSize groupDim).eraseIdx (groupDim + 1)
  newShape.set groupDim (newShape.getD groupDim 0 * groupSize)

/-- `OverSubChannelBlockView.forward`, shape.py:167-177. -/
def overSubChannelBlockView (expandedShape : List ℕ) (groupSize : ℕ) (groupDim : ℤ) (x : Tensor K) : Option (Tensor K) :=
  if x.shape.length = expandedShape.length then some x
  else (torchPad x (padding x.shape groupSize groupDim)).view expandedShape

/-- `DynamicOverSubChannelBlockView.forward`, shape.py:189-203. -/
def dynamicOverSubChannelBlockView (groupSize : ℕ) (groupDim : ℤ) (x : Tensor K) : Option (Tensor K) :=
  let pad := padding x.shape groupSize groupDim
  let x := torchPad x pad
  let shapeList := x.shape
  let g := pyIndex shapeList.length groupDim
  let shapeList := shapeList.set g (shapeList.getD g 0 / groupSize)
  let blockDim := if groupDim ≠ -1 then groupDim + 1 else -1
  let shapeList := pyInsert shapeList blockDim groupSize
  x.view shapeList

/-- The dimension over which the statistics of a group are reduced: `stats_reduce_dim`, src/brevitas/quant/solver/common.py:180-181 and
src/brevitas/quant/experimental/mx_quant_ocp.py:60-66, as a position in the expanded shape of rank `rank`. -/
def statsReduceDim (rank : ℕ) (groupDim : ℤ) : ℕ :=
  if groupDim = -1 then pyIndex rank (-1) else pyIndex rank (groupDim + 1)

/-- `torch.max(torch.abs(y), dim=d, keepdim=True)`: the `AbsMax` statistic (src/brevitas/core/stats/stats_op.py:161-174) of each group. -/
def Tensor.amaxKeepdim [LinearOrder K] (y : Tensor K) (d : ℕ) : Tensor K :=
  let newShape := y.shape.set d 1
  ⟨newShape, (List.range newShape.prod).map fun f =>
    let idx := unravel newShape f
    ((List.range (y.shape.getD d 0)).map fun j => |(y.at (idx.set d j)).getD 0|).foldr max 0⟩

/-- `Tensor.expand(shape)`: dimensions of size one are repeated. -/
def Tensor.expandTo (t : Tensor K) (shape : List ℕ) : Tensor K :=
  ⟨shape, (List.range shape.prod).map fun f =>
    (t.at (List.zipWith (fun s i => if s = 1 then 0 else i) t.shape (unravel shape f))).getD 0⟩

/-- The statistic that scales each element of a group-wise quantized activation, laid out like the padded input: view as blocks, reduce with
`AbsMax` over the block (`RuntimeDynamicGroupStatsScaling.forward`, src/brevitas/core/scaling/runtime.py:197-202), broadcast and flatten
(`GroupwiseIntQuantTensor.expand`, groupwise_int_quant_tensor.py:60-73). -/
def groupStat [LinearOrder K] (groupSize : ℕ) (groupDim : ℤ) (x : Tensor K) : Option (Tensor K) :=
  (dynamicOverSubChannelBlockView groupSize groupDim x).map fun y =>
    let startDim := if groupDim ≠ -1 then groupDim else -2
    ((y.amaxKeepdim (statsReduceDim y.shape.length groupDim)).expandTo y.shape).flatten2 (pyIndex y.shape.length startDim)

/-- `GroupwiseIntQuantTensor.from_expanded` with `compress=False`, groupwise_int_quant_tensor.py:75-86. `none` is the failed assertion or view. -/
def fromExpanded (groupSize : ℕ) (groupDim : ℤ) (x : Tensor K) : Option (Tensor K) :=
  let groupDim := if groupDim ≠ -1 then groupDim else -2
  let g := pyIndex x.shape.length groupDim
  if x.shape.getD g 0 % groupSize = 0 then
    let size := x.shape.set g (x.shape.getD g 0 / groupSize)
    let size := pyInsert size (groupDim + 1) groupSize
    x.view size
  else none

/-- The conversion of the flat column index of a weight matrix into a multi-index, src/brevitas/graph/gpxq.py:299-309 (the loop runs over
`shapes[::-1]` and the list is reversed at the end). -/
def gpxqIndexToNd (shapes : List ℕ) (index : ℕ) : List ℕ :=
  (shapes.reverse.foldl (fun (acc : List ℕ × ℕ) s => (acc.1 ++ [acc.2 % s], acc.2 / s)) ([], index)).1.reverse

end Brevitas
