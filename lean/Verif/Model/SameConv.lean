import Verif.Spec.Conv
import Mathlib.Data.Int.Notation

/-!
# Strided convolutions with `padding='same'` (`src/brevitas/nn/quant_conv.py`)

The weight, bias and input are those handed to `inner_forward_impl`, already quantised.  Inputs are batched.  `math.ceil(ih / sh)` divides floats; sizes
are assumed small enough (below `2 ** 53`) for the quotient to be on the right side of an integer.
-/

namespace Brevitas

namespace SameConv

open NdTensor

variable {K : Type*} [CommRing K]

/-- `is_same_padded_strided` (quant_conv.py:49-54, 136-141, 225-230), and whether `Conv*d.__init__` then gets the padding 0 in place of `'same'`. -/
def isSamePaddedStrided (zerosMode samePadding : Bool) (stride : List ℕ) : Bool := zerosMode && samePadding && stride.any (1 < ·)

/-- `math.ceil(ih / sh)`. -/
def outSize (i s : ℕ) : ℕ := (i + s - 1) / s

/-- `max((oh - 1) * self.stride[0] + (kh - 1) * self.dilation[0] + 1 - ih, 0)` (quant_conv.py:98, 186-187, 277-279), over the integers. -/
def padAmount (i k s d : ℕ) : ℕ := (max (((outSize i s : ℤ) - 1) * s + ((k : ℤ) - 1) * d + 1 - i) 0).toNat

/-- `QuantConv1d.conv1d_same_zeros_pad_stride`, quant_conv.py:93-102. -/
def conv1dSame (stride dilation : List ℕ) (groups : ℕ) (x w : NdTensor K) (bias : Option (List ℕ → K)) : Option (NdTensor K) :=
  let ih := x.shape.getD (x.shape.length - 1) 0
  let kh := w.shape.getD (w.shape.length - 1) 0
  let padH := padAmount ih kh (stride.getD 0 0) (dilation.getD 0 0)
  let x := if 0 < padH then padZeros [padH / 2, padH - padH / 2] x else x
  convNd stride dilation groups x w bias

/-- `QuantConv2d.conv2d_same_zeros_pad_stride`, quant_conv.py:181-191. -/
def conv2dSame (stride dilation : List ℕ) (groups : ℕ) (x w : NdTensor K) (bias : Option (List ℕ → K)) : Option (NdTensor K) :=
  let ih := x.shape.getD (x.shape.length - 2) 0
  let iw := x.shape.getD (x.shape.length - 1) 0
  let kh := w.shape.getD (w.shape.length - 2) 0
  let kw := w.shape.getD (w.shape.length - 1) 0
  let padH := padAmount ih kh (stride.getD 0 0) (dilation.getD 0 0)
  let padW := padAmount iw kw (stride.getD 1 0) (dilation.getD 1 0)
  let x := if 0 < padH ∨ 0 < padW then padZeros [padW / 2, padW - padW / 2, padH / 2, padH - padH / 2] x else x
  convNd stride dilation groups x w bias

/-- `QuantConv3d.conv3d_same_zeros_pad_stride`, quant_conv.py:272-291.  The test before the padding does not look at the depth (line 280). -/
def conv3dSame (stride dilation : List ℕ) (groups : ℕ) (x w : NdTensor K) (bias : Option (List ℕ → K)) : Option (NdTensor K) :=
  let id := x.shape.getD (x.shape.length - 3) 0
  let ih := x.shape.getD (x.shape.length - 2) 0
  let iw := x.shape.getD (x.shape.length - 1) 0
  let kd := w.shape.getD (w.shape.length - 3) 0
  let kh := w.shape.getD (w.shape.length - 2) 0
  let kw := w.shape.getD (w.shape.length - 1) 0
  let padD := padAmount id kd (stride.getD 0 0) (dilation.getD 0 0)
  let padH := padAmount ih kh (stride.getD 1 0) (dilation.getD 1 0)
  let padW := padAmount iw kw (stride.getD 2 0) (dilation.getD 2 0)
  let x := if 0 < padH ∨ 0 < padW then padZeros [padW / 2, padW - padW / 2, padH / 2, padH - padH / 2, padD / 2, padD - padD / 2] x else x
  convNd stride dilation groups x w bias

/-- `inner_forward_impl` of `QuantConv1d`, `QuantConv2d` and `QuantConv3d` (quant_conv.py:107-111, 196-200, 298-302) for `padding='same'` and zeros: the functions
above when a stride is larger than one, else torch's own `_conv_forward` (not modelled: `torchSame`). -/
def innerForward (rank : ℕ) (torchSame : NdTensor K → NdTensor K → Option (List ℕ → K) → Option (NdTensor K)) (stride dilation : List ℕ) (groups : ℕ)
    (x w : NdTensor K) (bias : Option (List ℕ → K)) : Option (NdTensor K) :=
  if isSamePaddedStrided true true stride then
    match rank with
    | 1 => conv1dSame stride dilation groups x w bias
    | 2 => conv2dSame stride dilation groups x w bias
    | 3 => conv3dSame stride dilation groups x w bias
    | _ => none
  else torchSame x w bias

end SameConv

end Brevitas
