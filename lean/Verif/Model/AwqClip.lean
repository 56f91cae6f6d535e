import Verif.Model.Ops
import Mathlib.Algebra.BigOperators.Group.Finset.Basic
import Mathlib.Data.Finset.Lattice.Fold
import Mathlib.Order.Interval.Finset.Nat

/-!
# AWQ fake quantisation and clipping (`src/brevitas_examples/llm/llm_quant/awq/quantizer.py` and `auto_clip.py`)

A tensor is its shape and its elements in row-major order; `none` is an exception.  The assertions that nothing is NaN are not modelled.
-/

namespace Brevitas.AwqClip

open Finset Brevitas

variable {K : Type*} [Field K] [LinearOrder K] [IsStrictOrderedRing K] [FloorRing K]

/-- `amax` of `g` consecutive elements from `start`, quantizer.py:45. -/
def groupMax (g : ℕ) (h : 0 < g) (start : ℕ) (w : ℕ → K) : K := (range g).sup' ⟨0, mem_range.mpr h⟩ fun j => w (start + j)

/-- `amin`, quantizer.py:46. -/
def groupMin (g : ℕ) (h : 0 < g) (start : ℕ) (w : ℕ → K) : K := (range g).inf' ⟨0, mem_range.mpr h⟩ fun j => w (start + j)

/-- `(max_val - min_val).clamp(min=1e-5) / max_int`, quantizer.py:47-49. -/
def groupScale (nBit : ℕ) (lo hi : K) : K := max (hi - lo) (1 / 100000) / (2 ^ nBit - 1)

/-- `(-torch.round(min_val / scales)).clamp_(min_int, max_int)`, quantizer.py:50. -/
def groupZero (nBit : ℕ) (s lo : K) : ℤ := min (max (-torchRound (lo / s)) 0) (2 ^ nBit - 1)

/-- `(torch.clamp(torch.round(w / scales) + zeros, min_int, max_int) - zeros) * scales`, quantizer.py:66; the in-place variant of quantizer.py:64
computes the same. -/
def fakeQuant (nBit : ℕ) (s : K) (z : ℤ) (x : K) : K := ((min (max (torchRound (x / s) + z) 0) (2 ^ nBit - 1) - z : ℤ) : K) * s

/-- The length of the rows in which the tensor is quantised, quantizer.py:39-43.  A row without elements has no maximum. -/
def rowLength (shape : List ℕ) (qGroupSize : ℤ) : Option ℕ :=
  match shape.getLast? with
  | none => none
  | some last =>
    if 0 < qGroupSize then
      if (last : ℤ) % qGroupSize = 0 then some qGroupSize.toNat else none
    else if shape.length = 2 ∧ last ≠ 0 then some last else none

/-- `pseudo_quantize_tensor`, quantizer.py:37-74.  Without a zero point `min_val` is read before it is assigned (quantizer.py:52). -/
def pseudoQuantize (nBit : ℕ) (zeroPoint : Bool) (qGroupSize : ℤ) (shape : List ℕ) (w : ℕ → K) : Option (ℕ → K) :=
  match rowLength shape qGroupSize with
  | none => none
  | some g =>
    if zeroPoint then
      if h : 0 < g then
        some fun k =>
          let lo := groupMin g h (k / g * g) w
          let hi := groupMax g h (k / g * g) w
          let s := groupScale nBit lo hi
          fakeQuant nBit s (groupZero nBit s lo) (w k)
      else none
    else none

/-- `torch.clamp(w, -max_val, max_val)` with one bound for every `g` consecutive elements, auto_clip.py:69-71 and 116-117. -/
def clipGroups (g : ℕ) (bound : ℕ → K) (w : ℕ → K) : ℕ → K := fun k => min (max (w k) (-(bound (k / g)))) (bound (k / g))

/-- `w.abs().amax(dim=-1)`, auto_clip.py:61: of group `j`. -/
def orgMax (g : ℕ) (h : 0 < g) (w : ℕ → K) (j : ℕ) : K := (range g).sup' ⟨0, mem_range.mpr h⟩ fun i => |w (j * g + i)|

/-- The output of one group for one token: `(input_feat * w).sum(dim=-1)`, auto_clip.py:66 and 73.  Group `j` of the weight belongs to output channel
`j / (ci / g)` and reads the features of group `j % (ci / g)`. -/
def groupOut (g ci : ℕ) (x : ℕ → ℕ → K) (w : ℕ → K) (j t : ℕ) : K := ∑ i ∈ range g, x t (j % (ci / g) * g + i) * w (j * g + i)

/-- `(cur_out - org_out).pow(2).mean(dim=1)`, auto_clip.py:76, over the `n` tokens sampled with the given stride. -/
def groupErr (g ci : ℕ) (x : ℕ → ℕ → K) (stride n : ℕ) (w q : ℕ → K) (j : ℕ) : K :=
  (∑ t ∈ range n, (groupOut g ci x q j (t * stride) - groupOut g ci x w j (t * stride)) ^ 2) / n

/-- One candidate for all groups, auto_clip.py:68-81: the bounds and their errors so far. -/
def clipStep (nBit : ℕ) (zeroPoint : Bool) (qGroupSize : ℤ) (shape : List ℕ) (g ci : ℕ) (h : 0 < g) (x : ℕ → ℕ → K) (stride n : ℕ) (w : ℕ → K)
    (i : ℕ) (st : (ℕ → K) × (ℕ → K)) : Option ((ℕ → K) × (ℕ → K)) :=
  let maxVal : ℕ → K := fun j => orgMax g h w j * (1 - (i : K) / 20)
  match pseudoQuantize nBit zeroPoint qGroupSize shape (clipGroups g maxVal w) with
  | none => none
  | some q =>
    let err := groupErr g ci x stride n w q
    some (fun j => if err j < st.2 j then maxVal j else st.1 j, fun j => if err j < st.2 j then err j else st.2 j)

/-- `auto_clip_layer`, auto_clip.py:42-90, for a weight of `co` outputs and `ci` inputs and features of `tokens` tokens: a bound for each group.  The loop over batches of 256 outputs works on each of them alone and is not modelled, but its assertion is; with no outputs there
is nothing to concatenate.  The slice of auto_clip.py:50 raises if its step is zero. -/
def autoClipLayer (nBit : ℕ) (zeroPoint : Bool) (qGroupSize : ℤ) (co ci tokens : ℕ) (x : ℕ → ℕ → K) (w : ℕ → K) : Option (ℕ → K) :=
  let g := if 0 < qGroupSize then qGroupSize.toNat else ci
  if h : 0 < g then
    if ci % g = 0 ∧ tokens / 512 ≠ 0 ∧ co % 256 = 0 ∧ co ≠ 0 then
      let stride := tokens / 512
      let n := (tokens + stride - 1) / stride
      ((List.range 10).foldl (fun st i => st.bind (clipStep nBit zeroPoint qGroupSize [256, 1, ci / g, g] g ci h x stride n w i))
        (some (orgMax g h w, fun _ => 1000000000))).map Prod.fst
    else none
  else none

/-- A linear layer: its name, its sizes and its weight. -/
structure Layer (K : Type*) where
  name : List Char
  co : ℕ
  ci : ℕ
  weight : ℕ → K

/-- `any([_ in name for _ in ["q_", "k_"]])`, auto_clip.py:101. -/
def skipped (name : List Char) : Bool := decide (['q', '_'] <:+: name) || decide (['k', '_'] <:+: name)

/-- `auto_clip_block` followed by `apply_clip`, auto_clip.py:94-118: the layers afterwards.  `feats` are the features cached for each
name. -/
def clipBlock (nBit : ℕ) (zeroPoint : Bool) (qGroupSize : ℤ) (feats : List Char → Option (ℕ × (ℕ → ℕ → K))) :
    List (Layer K) → Option (List (Layer K))
  | [] => some []
  | l :: ls =>
    if skipped l.name then (clipBlock nBit zeroPoint qGroupSize feats ls).map (l :: ·)
    else
      match feats l.name with
      | none => none
      | some (tokens, x) =>
        match autoClipLayer nBit zeroPoint qGroupSize l.co l.ci tokens x l.weight with
        | none => none
        | some bound =>
          (clipBlock nBit zeroPoint qGroupSize feats ls).map
            ({ l with weight := clipGroups (if 0 < qGroupSize then qGroupSize.toNat else l.ci) bound l.weight } :: ·)

end Brevitas.AwqClip
