import Mathlib.Algebra.Order.Field.Basic
import Mathlib.Algebra.Order.BigOperators.Group.List
import Mathlib.Algebra.BigOperators.Ring.List
import Mathlib.Tactic.Ring
import Mathlib.Tactic.Linarith
import Mathlib.Tactic.FieldSimp
import Mathlib.Tactic.NormNum

/-!
# Bit-width regularisation (`src/brevitas/loss/weighted_bit_width.py`)
-/

namespace Brevitas

variable {K : Type*} [Field K]

/-- What a forward hook sees: the size of the output, its bit width if it is a quantised tensor, and the operations per output element of
the layer (`per_elem_ops`; used by the third loss only). -/
structure HookedOutput (K : Type*) where
  size : List ℕ
  bitWidth : Option K
  perElemOps : ℕ

/-- `WeightBitWidthWeightedBySize`, `ActivationBitWidthWeightedBySize`, `QuantLayerOutputBitWidthWeightedByOps`. -/
inductive LossKind where
  | weightBySize
  | actBySize
  | outputByOps
deriving DecidableEq

/-- `BitWidthWeighted`, weighted_bit_width.py:21-28: the accumulated list and the total. -/
structure BitWidthWeighted (K : Type*) where
  weighted : List K
  total : K

/-- `__init__` and `zero_accumulated_values`, weighted_bit_width.py:24-38. -/
def BitWidthWeighted.zero : BitWidthWeighted K := ⟨[], 0⟩

/-- `MEGA = 10e6`, weighted_bit_width.py:18. -/
def mega : K := 10000000

/-- The hooks: weighted_bit_width.py:64-67 (all sizes), 82-85 (batch dimension excluded), 98-103 (operations; plain tensors are skipped). The
first two raise on plain tensors, which have neither `value` nor `bit_width`. -/
def BitWidthWeighted.hook (kind : LossKind) (st : BitWidthWeighted K) (out : HookedOutput K) : Option (BitWidthWeighted K) :=
  match kind with
  | .weightBySize => out.bitWidth.map fun b =>
    let n : K := (out.size.foldl (· * ·) 1 : ℕ)
    ⟨st.weighted ++ [n * b], st.total + n⟩
  | .actBySize => out.bitWidth.map fun b =>
    let n : K := (out.size.tail.foldl (· * ·) 1 : ℕ)
    ⟨st.weighted ++ [n * b], st.total + n⟩
  | .outputByOps =>
    match out.bitWidth with
    | some b =>
      let n : K := (out.size.tail.foldl (· * ·) 1 : ℕ) * out.perElemOps / mega
      some ⟨st.weighted ++ [b * n], st.total + n⟩
    | none => some st

/-- `retrieve(as_average=True)`, weighted_bit_width.py:40-49, and `log`, 51-52; `none` is the exception. -/
def BitWidthWeighted.retrieve [DecidableEq K] (st : BitWidthWeighted K) : Option K :=
  if st.total ≠ 0 ∧ st.weighted ≠ [] then some (st.weighted.sum / st.total) else none

/-- `retrieve(as_average=False)`. -/
def BitWidthWeighted.retrieveList [DecidableEq K] (st : BitWidthWeighted K) : Option (List K) :=
  if st.total ≠ 0 ∧ st.weighted ≠ [] then some (st.weighted.map fun b => b / st.total) else none

/-- A history: outputs seen by hooks, and resets (`none`). -/
def BitWidthWeighted.run (kind : LossKind) (events : List (Option (HookedOutput K))) : Option (BitWidthWeighted K) :=
  events.foldlM (fun st e => match e with
    | some out => st.hook kind out
    | none => some .zero) .zero

/-- `per_elem_ops` of `QuantConv1d/2d/3d` (src/brevitas/nn/quant_conv.py:78-80, 165-168, 254-257). -/
def convPerElemOps (kernelSize : List ℕ) (inChannels groups : ℕ) : ℕ :=
  2 * kernelSize.foldl (· * ·) 1 * (inChannels / groups)

/-- `per_elem_ops` of `QuantLinear` (src/brevitas/nn/quant_linear.py:49-51). -/
def linearPerElemOps (inFeatures : ℕ) : ℕ := 2 * inFeatures

end Brevitas
