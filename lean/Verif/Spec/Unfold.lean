import Verif.Spec.LayerFn
import Mathlib.Data.Real.Basic

/-!
# Unfolding the inputs of convolutions, and the change of a layer's outputs

Nothing here refers to Brevitas. `unfoldNd` is the package of that name (`UnfoldNd`, which is `torch.nn.Unfold` for any number of dimensions, and `UnfoldTransposeNd`).
-/

namespace Brevitas

namespace NdTensor

variable {K : Type*} [CommRing K]

/-- `unfoldNd.UnfoldNd(kernel, dilation, padding, stride)(x)`: shape `[batch, channels * taps, windows]`, entry `[b, c * taps + t, l]` is what tap `t` of window `l` reads in
channel `c`; `none` is an exception. -/
def unfoldNd (kernel stride padding dilation : List ℕ) (x : NdTensor K) : Option (NdTensor K) :=
  match x.shape with
  | bt :: ch :: sp =>
    let padded := padZeros (symPads padding) x
    let psp := padded.shape.drop 2
    if padding.length = sp.length ∧ kernel.length = sp.length ∧ stride.length = sp.length ∧ dilation.length = sp.length ∧ (∀ s ∈ stride, 0 < s) ∧
        ∀ a ∈ zip4 psp kernel stride dilation, (a.2.1 - 1) * a.2.2.2 + 1 ≤ a.1 then
      let sizes := (zip4 psp kernel stride dilation).map fun a => convSize a.1 a.2.1 a.2.2.1 a.2.2.2
      some ⟨[bt, ch * kernel.prod, sizes.prod], fun idx =>
        padded.data (idx.getD 0 0 :: idx.getD 1 0 / kernel.prod ::
          tapPos stride dilation (fromPosition sizes (idx.getD 2 0)) (fromPosition kernel (idx.getD 1 0 % kernel.prod)))⟩
    else none
  | _ => none

/-- `unfoldNd.UnfoldTransposeNd(kernel, dilation, padding, stride)(x)`, with no output padding: entry `[b, c * taps + t, l]` is what tap `t` carries from channel `c` to
position `l` of the output of a transposed convolution, zero if nothing. -/
def unfoldTransposeNd (kernel stride padding dilation : List ℕ) (x : NdTensor K) : Option (NdTensor K) :=
  match x.shape with
  | bt :: ch :: sp =>
    if padding.length = sp.length ∧ kernel.length = sp.length ∧ stride.length = sp.length ∧ dilation.length = sp.length ∧ (∀ s ∈ stride, 0 < s) then
      let sizes := transposedSizes sp kernel stride padding (List.replicate sp.length 0) dilation
      some ⟨[bt, ch * kernel.prod, sizes.prod], fun idx =>
        ((transposedSource sp stride padding dilation (fromPosition sizes (idx.getD 2 0)) (fromPosition kernel (idx.getD 1 0 % kernel.prod))).map fun pos =>
          x.data (idx.getD 0 0 :: idx.getD 1 0 / kernel.prod :: pos)).getD 0⟩
    else none
  | _ => none

/-- The squared distance of two tensors of the same shape. -/
def distSq (y y' : NdTensor K) : K := ((indices y.shape).map fun i => (y'.data i - y.data i) ^ 2).sum

/-- The squared change of the outputs of a layer `f`, a function of input and weight, on the input `x`, when the weight goes from `w` to `w'`. -/
def outputChange (f : NdTensor K → NdTensor K → Option (NdTensor K)) (w w' x : NdTensor K) : Option K :=
  (f x w).bind fun y => (f x w').map fun y' => distSq y y'

/-- Weight `i` of output channel `o`: the entries of `w[o]`, one after the other. -/
def weightRow (w : NdTensor K) (o i : ℕ) : K := w.data (o :: fromPosition (w.shape.drop 1) i)

/-- Weight `i` of output channel `o` of a transposed convolution without groups: the entries of `w[:, o]`, one after the other. -/
def weightColumn (w : NdTensor K) (o i : ℕ) : K := w.data (i / (w.shape.drop 2).prod :: o :: fromPosition (w.shape.drop 2) (i % (w.shape.drop 2).prod))

/-- `d H dᵀ` for a row `d` of `n` numbers. -/
def quadForm (n : ℕ) (H : ℕ → ℕ → K) (d : ℕ → K) : K := ((List.range n).map fun i => ((List.range n).map fun j => d i * H i j * d j).sum).sum

end NdTensor

end Brevitas
