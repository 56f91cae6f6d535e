import Verif.Spec.MhaReference

/-!
# Attention under a mask that is shared between sequences, heads or positions
-/

namespace Brevitas.OptAttn

open Brevitas.Mha

/-- Along a dimension of size 1 there is only one value. -/
def Spec.at (size i : ℕ) : ℕ := if size = 1 then 0 else i

/-- What a mask adds to the score of position `s` for position `t`, in head `h` of sequence `n`: a mask with four dimensions is for sequences, heads and positions, one with
three for heads of all sequences one after the other, one with two for positions. -/
def Spec.maskValue (m : Mask) (heads n h t s : ℕ) : WithBot ℝ :=
  match m.shape with
  | [b, k, q, _] => m.toFloat.data [Spec.at b n, Spec.at k h, Spec.at q t, s]
  | [_, _, _] => m.toFloat.data [n * heads + h, t, s]
  | [q, _] => m.toFloat.data [Spec.at q t, s]
  | _ => 0

/-- Masks for `B` sequences of `T` positions, keys of `S` positions and `H` heads. -/
def Spec.MaskFor (m : Mask) (B H T S : ℕ) : Prop :=
  (∃ b k q, m.shape = [b, k, q, S] ∧ (b = 1 ∨ b = B) ∧ (k = 1 ∨ k = H) ∧ (q = 1 ∨ q = T)) ∨ m.shape = [B * H, T, S] ∨ (∃ q, m.shape = [q, S] ∧ (q = 1 ∧ T = S ∨ q ≠ 1 ∧ q = T))

/-- The weights of attention when `mask` is added to the scores of the positions that are given. -/
noncomputable def Spec.weights (M : Module) (l : Layout) (query kv : NdTensor ℝ) (S : ℕ) (mask : ℕ → ℕ → ℕ → ℕ → WithBot ℝ) (n h t s : ℕ) : ℝ :=
  Brevitas.Spec.attentionWeight M.quant (M.embedDim / M.numHeads) (M.queries l query n) (M.keyValues l kv kv S n) (fun h t s => if s < S then mask n h t s else 0) h t s

/-- The output of attention. -/
noncomputable def Spec.output (M : Module) (l : Layout) (query kv : NdTensor ℝ) (S : ℕ) (mask : ℕ → ℕ → ℕ → ℕ → WithBot ℝ) (n t : ℕ) : ℕ → ℝ :=
  M.outProj.row (Brevitas.Spec.attentionHeads M.quant (M.embedDim / M.numHeads) (M.queries l query n) (M.keyValues l kv kv S n)
    (fun h t s => if s < S then mask n h t s else 0) t)

end Brevitas.OptAttn
