import Verif.Spec.Conv

/-!
# `torch.nn.functional.linear`, padded convolutions and transposed convolutions

Nothing here refers to Brevitas.
-/

namespace Brevitas

namespace NdTensor

variable {K : Type*} [CommRing K]

/-- The padding list of `torch.nn.functional.pad` for the same padding on both sides of every axis. -/
def symPads (padding : List ℕ) : List ℕ := padding.reverse.flatMap fun p => [p, p]

/-- `torch.nn.functional.conv1d/2d/3d(x, w, bias, stride, padding, dilation, groups)` of a batched input. -/
def convPadNd (stride padding dilation : List ℕ) (groups : ℕ) (x w : NdTensor K) (bias : Option (List ℕ → K)) : Option (NdTensor K) :=
  if padding.length + 2 = x.shape.length then convNd stride dilation groups (padZeros (symPads padding) x) w bias else none

/-- `torch.nn.functional.linear(x, w, bias)`: over the last dimension. -/
def linearNd (x w : NdTensor K) (bias : Option (List ℕ → K)) : Option (NdTensor K) :=
  match w.shape with
  | [out, n] =>
    if x.shape ≠ [] ∧ x.shape.getLastD 0 = n then
      some ⟨x.shape.dropLast ++ [out], fun idx =>
        ((List.range n).map fun i => w.data [idx.getLastD 0, i] * x.data (idx.dropLast ++ [i])).sum + (bias.map fun b => b [idx.getLastD 0]).getD 0⟩
    else none
  | _ => none

/-- The position of the input that tap `t` of a transposed convolution carries to output `o`, along one axis of `n` elements; `none` if there is none. -/
def transposedPos (n s p d o t : ℕ) : Option ℕ := if t * d ≤ o + p ∧ s ∣ o + p - t * d ∧ (o + p - t * d) / s < n then some ((o + p - t * d) / s) else none

/-- The same along every axis. -/
def transposedSource : List ℕ → List ℕ → List ℕ → List ℕ → List ℕ → List ℕ → Option (List ℕ)
  | n :: sp, s :: stride, p :: padding, d :: dilation, o :: os, t :: ts =>
    (transposedPos n s p d o t).bind fun i => (transposedSource sp stride padding dilation os ts).map fun is => i :: is
  | _, _, _, _, _, _ => some []

/-- Sizes of the output of a transposed convolution. -/
def transposedSizes : List ℕ → List ℕ → List ℕ → List ℕ → List ℕ → List ℕ → List ℕ
  | n :: sp, k :: ks, s :: stride, p :: padding, q :: outputPadding, d :: dilation =>
    ((n - 1) * s + (k - 1) * d + q + 1 - 2 * p) :: transposedSizes sp ks stride padding outputPadding dilation
  | _, _, _, _, _, _ => []

/-- `torch.nn.functional.conv_transpose1d/2d/3d(x, w, bias, stride, padding, output_padding, groups, dilation)` of a batched input: the weight has the shape
`[in_channels, out_channels / groups, *kernel]`. -/
def convTransposeNd (stride padding outputPadding dilation : List ℕ) (groups : ℕ) (x w : NdTensor K) (bias : Option (List ℕ → K)) : Option (NdTensor K) :=
  match x.shape, w.shape with
  | bt :: ch :: sp, ci :: og :: ks =>
    if sp.length = ks.length ∧ stride.length = ks.length ∧ padding.length = ks.length ∧ outputPadding.length = ks.length ∧ dilation.length = ks.length ∧
        0 < groups ∧ ch = ci ∧ ch % groups = 0 ∧ (∀ s ∈ stride, 0 < s) then
      some ⟨bt :: og * groups :: transposedSizes sp ks stride padding outputPadding dilation, fun idx =>
        ((List.range (ch / groups)).map fun j => ((indices ks).map fun t =>
          ((transposedSource sp stride padding dilation (idx.drop 2) t).map fun pos =>
            w.data ((idx.getD 1 0 / og * (ch / groups) + j) :: (idx.getD 1 0 % og) :: t) *
              x.data (idx.getD 0 0 :: (idx.getD 1 0 / og * (ch / groups) + j) :: pos)).getD 0).sum).sum + (bias.map fun b => b [idx.getD 1 0]).getD 0⟩
    else none
  | _, _ => none

end NdTensor

end Brevitas
