import Verif.Spec.Tensor
import Verif.Spec.Index
import Mathlib.Algebra.Order.Ring.Defs

/-!
# Semantics of a few torch functions on shaped tensors

Nothing here refers to Brevitas. Broadcasting, permutation of dimensions, row-major reshaping, max pooling and friends, as documented by torch.
-/

namespace Brevitas

namespace NdTensor

variable {K : Type*}

/-- The index read by broadcasting in a tensor of shape `shape`, for index `idx` of the result: dimensions are aligned at the last one, and a
dimension of size one is read at 0. -/
def bcIndex (shape idx : List ℕ) : List ℕ :=
  List.zipWith (fun d i => if d = 1 then 0 else i) shape (idx.drop (idx.length - shape.length))

/-- Shape with ones added in front up to rank `n`. -/
def padShape (n : ℕ) (shape : List ℕ) : List ℕ := List.replicate (n - shape.length) 1 ++ shape

/-- Broadcast of two sizes; `none` if they are incompatible. -/
def bcSize (a b : ℕ) : Option ℕ := if a = b then some a else if a = 1 then some b else if b = 1 then some a else none

/-- Broadcast of two lists of sizes of the same length. -/
def bcSizes : List ℕ → List ℕ → Option (List ℕ)
  | a :: as, b :: bs => (bcSize a b).bind fun c => (bcSizes as bs).map fun cs => c :: cs
  | _, _ => some []

/-- `torch.broadcast_shapes`. -/
def bcShape (a b : List ℕ) : Option (List ℕ) := bcSizes (padShape (max a.length b.length) a) (padShape (max a.length b.length) b)

/-- Shape `s` broadcasts to shape `v` without enlarging it: every dimension, aligned at the last one, is one or that of `v`. -/
def Broadcasts (s v : List ℕ) : Prop := s.length ≤ v.length ∧ List.Forall₂ (fun a b => a = 1 ∨ a = b) s (v.drop (v.length - s.length))

/-- An element-wise binary operation with broadcasting. -/
def bcOp (op : K → K → K) (a b : NdTensor K) : Option (NdTensor K) :=
  (bcShape a.shape b.shape).map fun shape => ⟨shape, fun idx => op (a.data (bcIndex a.shape idx)) (b.data (bcIndex b.shape idx))⟩

/-- All the indices of a shape, in row-major order. -/
def indices : List ℕ → List (List ℕ)
  | [] => [[]]
  | d :: ds => (List.range d).flatMap fun i => (indices ds).map fun is => i :: is

/-- Reorder a list (of sizes) by `dims`. -/
def reorder (dims l : List ℕ) : List ℕ := dims.map fun d => l.getD d 0

/-- The index of the source read by `permute(dims)` for index `idx` of the result. -/
def unorder (dims idx : List ℕ) : List ℕ := (List.range dims.length).map fun d => idx.getD (dims.idxOf d) 0

/-- `Tensor.permute(dims)`; `none` unless `dims` lists every dimension once. -/
def permute (dims : List ℕ) (t : NdTensor K) : Option (NdTensor K) :=
  if dims.Perm (List.range t.shape.length) then some ⟨reorder dims t.shape, fun idx => t.data (unorder dims idx)⟩ else none

/-- `Tensor.transpose(i, j)` of a tensor of rank `n`: the permutation exchanging the two dimensions. -/
def swapDims (n i j : ℕ) : List ℕ := (List.range n).map fun d => if d = i then j else if d = j then i else d

/-- `Tensor.transpose(i, j)` -/
def transpose (i j : ℕ) (t : NdTensor K) : Option (NdTensor K) :=
  if i < t.shape.length ∧ j < t.shape.length then t.permute (swapDims t.shape.length i j) else none

/-- Row-major position to index. -/
def fromPosition : List ℕ → ℕ → List ℕ
  | [], _ => []
  | _ :: ds, f => f / ds.prod :: fromPosition ds (f % ds.prod)

/-- `Tensor.reshape(shape)`; `none` if the number of elements differs. -/
def reshape (shape : List ℕ) (t : NdTensor K) : Option (NdTensor K) :=
  if shape.prod = t.shape.prod then some ⟨shape, fun idx => t.data (fromPosition t.shape (Spec.ravel shape idx))⟩ else none

/-- Element-wise function. -/
def map (f : K → K) (t : NdTensor K) : NdTensor K := ⟨t.shape, fun idx => f (t.data idx)⟩

/-- Largest element of a list (0 for an empty one). -/
def maxOf [LinearOrder K] [Zero K] : List K → K
  | [] => 0
  | x :: xs => xs.foldl max x

/-- Pooling over windows: the first `lead` dimensions are kept and for each position of the others the maximum is taken over the window of source
positions. Covers `max_pool*d` and `adaptive_max_pool*d` (padding positions are not part of a window), and nearest neighbour interpolation
(windows of one position). -/
def maxPool [LinearOrder K] [Zero K] (lead : ℕ) (outSpatial : List ℕ) (window : List ℕ → List (List ℕ)) (t : NdTensor K) : NdTensor K :=
  ⟨t.shape.take lead ++ outSpatial, fun idx => maxOf ((window (idx.drop lead)).map fun s => t.data (idx.take lead ++ s))⟩

/-- The index of the source read by `pixel_shuffle` with factor `r` for an index of the result. -/
def shuffleIndex (r : ℕ) : List ℕ → List ℕ
  | [i, k, y, x] => [i, k * (r * r) + (y % r) * r + x % r, y / r, x / r]
  | idx => idx

/-- `torch.nn.functional.pixel_shuffle(x, r)` of a tensor of rank 4. -/
def pixelShuffle (r : ℕ) (t : NdTensor K) : Option (NdTensor K) :=
  match t.shape with
  | [n, c, h, w] =>
    if r ≠ 0 ∧ c % (r * r) = 0 then some ⟨[n, c / (r * r), h * r, w * r], fun idx => t.data (shuffleIndex r idx)⟩ else none
  | _ => none

/-- `torch.nn.functional.pad` with a constant, of the last dimension, by `left` and `right`. -/
def padLast (left right : ℕ) (v : K) (t : NdTensor K) : NdTensor K :=
  let n := t.shape.length - 1
  let size := t.shape.getD n 0
  ⟨t.shape.set n (left + size + right), fun idx =>
    if left ≤ idx.getD n 0 ∧ idx.getD n 0 < left + size then t.data (idx.set n (idx.getD n 0 - left)) else v⟩

end NdTensor

end Brevitas
