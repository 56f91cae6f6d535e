import Verif.Spec.Broadcast
import Mathlib.Algebra.BigOperators.Group.List.Basic
import Mathlib.Algebra.Ring.Defs

/-!
# Convolutions: what torch computes, and 'same' padding

Nothing here refers to Brevitas.
-/

namespace Brevitas

namespace NdTensor

variable {K : Type*} [CommRing K]

/-- Source position of tap `t` of the window of output `o`, along each axis. -/
def tapPos (stride dilation o t : List ℕ) : List ℕ := List.zipWith (· + ·) (List.zipWith (· * ·) o stride) (List.zipWith (· * ·) t dilation)

/-- One output of a convolution with groups, reading the input through `read` (channel, position). `co` is the output channel, `perGroup` the number of output
channels per group, `cg` the number of input channels per group. -/
def convSum (w : NdTensor K) (bias : Option (List ℕ → K)) (stride dilation kernel : List ℕ) (perGroup cg co : ℕ) (o : List ℕ) (read : ℕ → List ℕ → K) : K :=
  ((List.range cg).map fun ci => ((indices kernel).map fun t => w.data (co :: ci :: t) * read (co / perGroup * cg + ci) (tapPos stride dilation o t)).sum).sum +
    (bias.map fun b => b [co]).getD 0

/-- Number of positions of a window of `k` taps at distance `d`, moved by `s`, in `n` elements. -/
def convSize (n k s d : ℕ) : ℕ := (n - (k - 1) * d - 1) / s + 1

/-- Four lists of the same length taken together. -/
def zip4 (n k s d : List ℕ) : List (ℕ × ℕ × ℕ × ℕ) := List.zip n (List.zip k (List.zip s d))

/-- `torch.nn.functional.conv1d/2d/3d(x, w, bias, stride, 0, dilation, groups)` of a batched input; `none` is an exception: wrong ranks or channels, a stride
of zero or a window larger than the input. -/
def convNd (stride dilation : List ℕ) (groups : ℕ) (x w : NdTensor K) (bias : Option (List ℕ → K)) : Option (NdTensor K) :=
  match x.shape, w.shape with
  | bt :: ch :: sp, out :: cg :: ks =>
    if sp.length = ks.length ∧ stride.length = ks.length ∧ dilation.length = ks.length ∧ 0 < groups ∧ ch = cg * groups ∧ out % groups = 0 ∧
        (∀ s ∈ stride, 0 < s) ∧ ∀ a ∈ zip4 sp ks stride dilation, (a.2.1 - 1) * a.2.2.2 + 1 ≤ a.1 then
      some ⟨bt :: out :: (zip4 sp ks stride dilation).map (fun a => convSize a.1 a.2.1 a.2.2.1 a.2.2.2), fun idx =>
        convSum w bias stride dilation ks (out / groups) cg (idx.getD 1 0) (idx.drop 2) fun c p => x.data (idx.getD 0 0 :: c :: p)⟩
    else none
  | _, _ => none

/-- The padding list of `torch.nn.functional.pad` as (left, right) pairs: the first pair is for the last dimension. -/
def padPairs : List ℕ → List (ℕ × ℕ)
  | l :: r :: rest => (l, r) :: padPairs rest
  | _ => []

/-- `torch.nn.functional.pad(x, pads)` with zeros. -/
def padZeros (pads : List ℕ) (x : NdTensor K) : NdTensor K :=
  let lr := (padPairs pads).reverse
  let lead := x.shape.length - lr.length
  let sp := x.shape.drop lead
  ⟨x.shape.take lead ++ List.zipWith (fun n p => p.1 + n + p.2) sp lr, fun idx =>
    let pos := idx.drop lead
    if List.Forall₂ (fun (i : ℕ) (a : ℕ × (ℕ × ℕ)) => a.2.1 ≤ i ∧ i < a.2.1 + a.1) pos (List.zip sp lr) then
      x.data (idx.take lead ++ List.zipWith (fun i p => i - p.1) pos lr)
    else 0⟩

/-- The input read at a position that may lie outside: zero there. `lead` are the indices of batch and channel. -/
def zeroRead (x : NdTensor K) (lead : List ℕ) (pos : List ℤ) : K :=
  if List.Forall₂ (fun (p : ℤ) (n : ℕ) => 0 ≤ p ∧ p < n) pos (x.shape.drop lead.length) then x.data (lead ++ pos.map Int.toNat) else 0

/-- `left` and `right` are the 'same' padding of an axis of `n` elements for a window of `k` taps at distance `d` moved by `s`: `⌈n / s⌉` windows fit, with the
least padding that lets them, and the same on both sides or one more on the right. -/
structure SamePadding (n k s d left right : ℕ) : Prop where
  fits : ((n + s - 1) / s - 1) * s + (k - 1) * d + 1 ≤ left + n + right
  least : ∀ total, ((n + s - 1) / s - 1) * s + (k - 1) * d + 1 ≤ n + total → left + right ≤ total
  even : right = left ∨ right = left + 1

end NdTensor

end Brevitas
