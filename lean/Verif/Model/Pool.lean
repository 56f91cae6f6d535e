import Verif.Spec.Pool
import Verif.Model.Scaling

/-!
# Average pooling and its rewrites (`src/brevitas/graph/per_input.py`, `src/brevitas/nn/quant_avg_pool.py`)

One image of one channel with any number of spatial dimensions: batch elements and channels are pooled independently. A tensor is the
function from multi-indices to values, with its sizes given apart.
-/

namespace Brevitas

open Spec

variable {K : Type*} [Field K] [LinearOrder K] [IsStrictOrderedRing K] [FloorRing K]

/-- One spatial dimension of a pooling or convolution: input size, kernel size, stride, padding. -/
structure PoolAxis where
  size : ℕ
  kernel : ℕ
  stride : ℕ
  padding : ℕ
deriving DecidableEq, Repr

/-- Options of `nn.AvgPool*d`. -/
structure PoolOpts where
  ceilMode : Bool
  countIncludePad : Bool
  divisorOverride : Option ℕ
deriving DecidableEq, Repr

/-- The defaults: those of `nn.AvgPool2d(kernel_size=k, stride=s)`. -/
def PoolOpts.default : PoolOpts := ⟨false, true, none⟩

/-- Output size of `nn.AvgPool*d` (`pooling_output_shape`, PyTorch documentation and ATen/native/Pool.h): rounded down, or up in ceil mode
with the last window required to start inside the input or the left padding. -/
def PoolAxis.outSize (a : PoolAxis) (ceilMode : Bool) : ℕ :=
  if ceilMode then
    let o := (a.size + 2 * a.padding - a.kernel + a.stride - 1) / a.stride + 1
    if (o - 1) * a.stride ≥ a.size + a.padding then o - 1 else o
  else (a.size + 2 * a.padding - a.kernel) / a.stride + 1

/-- Positions of window `o`: `o * stride - padding` to `min(start + kernel, size + padding)` (ATen/native/cpu/AvgPoolKernel.cpp). Positions
outside the input are padding. -/
def PoolAxis.window (a : PoolAxis) (o : ℕ) : List ℤ :=
  let start : ℤ := (o : ℤ) * a.stride - a.padding
  interval start (min (start + a.kernel) ((a.size : ℤ) + a.padding))

/-- Positions of window `o` inside the input. -/
def PoolAxis.innerWindow (a : PoolAxis) (o : ℕ) : List ℤ :=
  let start : ℤ := (o : ℤ) * a.stride - a.padding
  interval (max start 0) (min (start + a.kernel) (a.size : ℤ))

/-- Reading a zero-padded tensor. -/
def padRead (sizes : List ℕ) (x : List ℤ → K) (pos : List ℤ) : K :=
  if List.Forall₂ (fun (n : ℕ) (i : ℤ) => 0 ≤ i ∧ i < n) sizes pos then x pos else 0

/-- `nn.AvgPool1d/2d/3d.forward` at output index `idx` (PyTorch documentation; ATen/native/cpu/AvgPoolKernel.cpp). -/
def avgPool (opts : PoolOpts) (axes : List PoolAxis) (x : List ℤ → K) (idx : List ℕ) : K :=
  let total := gridSum (List.zipWith PoolAxis.window axes idx) (padRead (axes.map PoolAxis.size) x)
  let divisor : ℕ := match opts.divisorOverride with
    | some d => d
    | none =>
      if opts.countIncludePad then gridCount (List.zipWith PoolAxis.window axes idx)
      else gridCount (List.zipWith PoolAxis.innerWindow axes idx)
  total / divisor

/-- Window `o` of adaptive pooling from `n` to `out` positions: `floor(o n / out)` to `ceil((o + 1) n / out)`
(`start_index`, `end_index`, ATen/native/AdaptivePooling.h). -/
def adaptiveWindow (n out o : ℕ) : List ℤ :=
  interval (((o * n) / out : ℕ) : ℤ) ((((o + 1) * n + out - 1) / out : ℕ) : ℤ)

/-- `nn.AdaptiveAvgPool1d/2d/3d.forward` at output index `idx`. -/
def adaptiveAvgPool (sizes outs : List ℕ) (x : List ℤ → K) (idx : List ℕ) : K :=
  gridMean (List.zipWith (fun (no : ℕ × ℕ) o => adaptiveWindow no.1 no.2 o) (List.zip sizes outs) idx) x

/-- `AdaptiveAvgPoolToAvgPool.replace_modules`, per_input.py:44-65: the replacement, if there is one. `global_avgpool_unit_stride` is
`unitStride`. -/
def adaptiveToAvg (sizes outs : List ℕ) (unitStride : Bool) : Option (List PoolAxis) :=
  if (List.zipWith (fun n o => n % o) sizes outs).all (· == 0) then
    let s := List.zipWith (fun n o => n / o) sizes outs
    let k := List.zipWith (fun (no : ℕ × ℕ) s => no.1 - s * (no.2 - 1)) (List.zip sizes outs) s
    let s := if unitStride && outs.all (· == 1) then List.replicate s.length 1 else s
    some (List.zipWith (fun n (ks : ℕ × ℕ) => ⟨n, ks.1, ks.2, 0⟩) sizes (List.zip k s))
  else none

/-- `PerInputModuleToModuleByHook.hook_fn` over the calls made during one run of the model, src/brevitas/graph/base.py:83-90: each call is
a module and the size of its input; a second size for the same module raises. The map is an association list. -/
def observeSizes {M : Type*} [DecidableEq M] (calls : List (M × List ℕ)) : Option (List (M × List ℕ)) :=
  calls.foldlM (fun sizes call =>
    match sizes.lookup call.1 with
    | some s => if s ≠ call.2 then none else some sizes
    | none => some (call :: sizes)) []

/-- `nn.Conv*d` with one filter per channel (`groups = channels`), zero padding, no bias: cross-correlation at output index `idx`. -/
def depthwiseConv (weight : List ℤ → K) (axes : List PoolAxis) (x : List ℤ → K) (idx : List ℕ) : K :=
  gridSum (axes.map fun a => interval 0 a.kernel) fun off =>
    weight off * padRead (axes.map PoolAxis.size) x
      (List.zipWith (fun (ao : PoolAxis × ℕ) (j : ℤ) => (ao.2 : ℤ) * ao.1.stride - ao.1.padding + j) (List.zip axes idx) off)

/-- Output size of a convolution without dilation. -/
def PoolAxis.convOutSize (a : PoolAxis) : ℕ := (a.size + 2 * a.padding - a.kernel) / a.stride + 1

/-- `AvgPoolToQuantDepthwiseConv.replace_modules`, per_input.py:83-113: kernel size, stride and padding are kept, every weight is one over
the number of kernel elements. `ceil_mode`, `count_include_pad` and `divisor_override` are not looked at. Weight and activation quantisers
of the convolution are left out here. -/
def avgPoolToConv (axes : List PoolAxis) : (List ℤ → K) × List PoolAxis :=
  let kernelValue : K := 1 / ((axes.map PoolAxis.kernel).prod : ℕ)
  (fun _ => kernelValue, axes)

/-- `TruncAdaptiveAvgPool2d.compute_kernel_size_stride`, quant_avg_pool.py:104-112. -/
def computeKernelSizeStride (inputShape outputShape : List ℕ) : List ℕ × List ℕ :=
  let pairs := List.zip inputShape outputShape
  (pairs.map fun io => io.1 - (io.2 - 1) * (io.1 / io.2), pairs.map fun io => io.1 / io.2)

/-- The value handed to the truncation quantiser by `TruncAdaptiveAvgPool2d.forward`, quant_avg_pool.py:123-128: the average multiplied by
the number of elements of the kernel computed above. -/
def truncAdaptiveRescaled (sizes outs : List ℕ) (x : List ℤ → K) (idx : List ℕ) : K :=
  adaptiveAvgPool sizes outs x idx * ((computeKernelSizeStride sizes outs).1.prod : ℕ)

/-- The value handed to the truncation quantiser by `TruncAvgPool2d.forward`, quant_avg_pool.py:50-67: `nn.AvgPool2d` with the given kernel
and stride and the other options at their defaults, multiplied by `_avg_scaling`. -/
def truncAvgRescaled (axes : List PoolAxis) (x : List ℤ → K) (idx : List ℕ) : K :=
  avgPool .default axes x idx * ((axes.map PoolAxis.kernel).prod : ℕ)

end Brevitas
