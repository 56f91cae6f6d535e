import Verif.Spec.Tensor
import Mathlib.Analysis.SpecialFunctions.Exp
import Mathlib.Analysis.SpecialFunctions.Pow.Real
import Mathlib.Algebra.BigOperators.Group.Finset.Basic

/-!
# Multi-head attention

Nothing here refers to Brevitas.  Scores are real numbers or minus infinity (`⊥`).  A softmax over scores that are all minus infinity is `0 / 0`,
which is 0 here.
-/

namespace Brevitas.Spec

open Finset

/-- Exponential of a score. -/
noncomputable def expScore : WithBot ℝ → ℝ
  | ⊥ => 0
  | (x : ℝ) => Real.exp x

/-- Softmax of `n` scores. -/
noncomputable def softmax (n : ℕ) (x : ℕ → WithBot ℝ) (s : ℕ) : ℝ := expScore (x s) / ∑ s' ∈ range n, expScore (x s')

/-- A sequence of keys and values, once projected: `len` positions with features. -/
structure KeyValues where
  len : ℕ
  key : ℕ → ℕ → ℝ
  value : ℕ → ℕ → ℝ

/-- One more position. -/
def KeyValues.push (kv : KeyValues) (k v : ℕ → ℝ) : KeyValues where
  len := kv.len + 1
  key := fun s => if s < kv.len then kv.key s else k
  value := fun s => if s < kv.len then kv.value s else v

/-- Functions applied to each element of the scaled queries, the keys, the scores, the attention weights and the values: all of them the
identity in plain attention. -/
structure Elementwise where
  q : ℝ → ℝ := id
  k : ℝ → ℝ := id
  score : WithBot ℝ → WithBot ℝ := id
  weight : ℝ → ℝ := id
  v : ℝ → ℝ := id

/-- The score of position `s` for position `t` in head `h`, with heads of `d` features each, for projected queries. -/
noncomputable def attentionScore (f : Elementwise) (d : ℕ) (query : ℕ → ℕ → ℝ) (kv : KeyValues) (mask : ℕ → ℕ → ℕ → WithBot ℝ)
    (h t s : ℕ) : WithBot ℝ :=
  mask h t s + ((∑ i ∈ range d, f.q (query t (h * d + i) / Real.sqrt d) * f.k (kv.key s (h * d + i)) : ℝ) : WithBot ℝ)

/-- The weight position `t` gives to position `s` in head `h`. -/
noncomputable def attentionWeight (f : Elementwise) (d : ℕ) (query : ℕ → ℕ → ℝ) (kv : KeyValues) (mask : ℕ → ℕ → ℕ → WithBot ℝ)
    (h t s : ℕ) : ℝ :=
  f.weight (softmax kv.len (fun s => f.score (attentionScore f d query kv mask h t s)) s)

/-- Feature `e` of the concatenated heads at position `t`: feature `e` belongs to head `e / d`. -/
noncomputable def attentionHeads (f : Elementwise) (d : ℕ) (query : ℕ → ℕ → ℝ) (kv : KeyValues) (mask : ℕ → ℕ → ℕ → WithBot ℝ)
    (t e : ℕ) : ℝ :=
  ∑ s ∈ range kv.len, attentionWeight f d query kv mask (e / d) t s * f.v (kv.value s e)

end Brevitas.Spec
