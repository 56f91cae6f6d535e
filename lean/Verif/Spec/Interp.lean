import Mathlib.Data.Rat.Floor
import Mathlib.Algebra.Order.Floor.Ring
import Verif.Spec.Tensor

/-!
# `torch.nn.functional.interpolate`

As documented by torch, with the coordinates and the border handling of its implementation. Nothing here refers to Brevitas. The modes `linear`, `bilinear` and `trilinear` are one
mode here, for any number of spatial dimensions; `area` and `nearest-exact` are left out.
-/

namespace Brevitas

namespace Interp

variable {K : Type*} [Field K] [LinearOrder K] [IsStrictOrderedRing K] [FloorRing K]

/-- The interpolation mode; `align_corners` for linear interpolation. -/
inductive Mode where
  | nearest
  | linear (alignCorners : Bool)
  | bicubic
  deriving DecidableEq

/-- What the caller asks for in one dimension: a size, or a scale factor. -/
inductive Resize (K : Type*) where
  | size (n : ℕ)
  | factor (f : K)

/-- Size of the result in one dimension. -/
def Resize.outSize (inSize : ℕ) : Resize K → ℕ
  | .size n => n
  | .factor f => ⌊(inSize : K) * f⌋.toNat

/-- Distance, in pixels of the source, of neighbouring pixels of the result. -/
def Resize.ratio (mode : Mode) (inSize : ℕ) (z : Resize K) : K :=
  if mode = .linear true then
    if z.outSize inSize ≤ 1 then 0 else ((inSize : K) - 1) / ((z.outSize inSize : K) - 1)
  else
    match z with
    | .size n => (inSize : K) / n
    | .factor f => 1 / f

/-- An index within `0 .. inSize - 1`. -/
def clampIndex (inSize : ℕ) (i : ℤ) : ℕ := min i.toNat (inSize - 1)

/-- Weights of a fraction `t` for the four neighbours, with the coefficient `-3/4`. -/
def cubicWeights (t : K) : List K :=
  let a : K := -3 / 4
  let near (x : K) : K := ((a + 2) * x - (a + 3)) * x * x + 1
  let far (x : K) : K := ((a * x - 5 * a) * x + 8 * a) * x - 4 * a
  [far (t + 1), near t, near (1 - t), far (2 - t)]

/-- The pixels of the source, with weights, for pixel `d` of the result in one dimension. -/
def taps (mode : Mode) (ratio : K) (inSize d : ℕ) : List (ℕ × K) :=
  match mode with
  | .nearest => [(clampIndex inSize ⌊(d : K) * ratio⌋, 1)]
  | .linear alignCorners =>
    let src : K := if alignCorners then (d : K) * ratio else max (((d : K) + 1 / 2) * ratio - 1 / 2) 0
    let i := clampIndex inSize ⌊src⌋
    let t := min (max (src - i) 0) 1
    [(i, 1 - t), (min (i + 1) (inSize - 1), t)]
  | .bicubic =>
    let src : K := ((d : K) + 1 / 2) * ratio - 1 / 2
    let i := ⌊src⌋
    ([i - 1, i, i + 1, i + 2].map (clampIndex inSize)).zip (cubicWeights (src - i))

/-- The same in several dimensions: the products of the weights. -/
def tapsNd (mode : Mode) : List ℕ → List (Resize K) → List ℕ → List (List ℕ × K)
  | n :: sizes, z :: zs, d :: ds =>
    (taps mode (z.ratio mode n) n d).flatMap fun p => (tapsNd mode sizes zs ds).map fun q => (p.1 :: q.1, p.2 * q.2)
  | _, _, _ => [([], 1)]

/-- `interpolate(x, ...)` of a tensor of shape `(N, C, spatial…)`. -/
def interpolate (mode : Mode) (zs : List (Resize K)) (x : NdTensor K) : Option (NdTensor K) :=
  match x.shape with
  | n :: c :: sizes =>
    if sizes ≠ [] ∧ sizes.length = zs.length ∧ 0 ∉ sizes then
      some ⟨n :: c :: List.zipWith (fun s z => z.outSize s) sizes zs, fun idx =>
        ((tapsNd mode sizes zs (idx.drop 2)).map fun p => p.2 * x.data (idx.take 2 ++ p.1)).sum⟩
    else none
  | _ => none

end Interp

end Brevitas
