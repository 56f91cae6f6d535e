import Verif.Model.Awq

/-!
# What decoder layers compute

The forward pass of `OPTDecoderLayer` and `LlamaDecoderLayer` of `transformers`, at inference, for one sequence of `T` rows.
-/

namespace Brevitas.Spec

open Finset Brevitas.Awq

variable {K : Type*} [Field K]

/-- What a linear layer or a norm does to a row. -/
def opRow : Op K → (ℕ → K) → ℕ → K
  | .linear l, x, o => (∑ i ∈ range l.inFeatures, l.weight o i * x i) + (l.bias.map (· o)).getD 0
  | .norm n, x, c => n.core x c * n.weight c + (n.bias.map (· c)).getD 0

/-- How attention combines the values: `weights q k h t s` is the weight of position `s` for position `t` in head `h`, and may be any function of
queries and keys (softmax of scaled products, masks, rotary embeddings).  Each head has `headDim` features, and `groups` heads share the same keys and values. -/
structure Attention (K : Type*) where
  weights : (ℕ → ℕ → K) → (ℕ → ℕ → K) → ℕ → ℕ → ℕ → K
  headDim : ℕ
  groups : ℕ := 1

/-- The output of the heads, before the output projection. -/
def Attention.heads (A : Attention K) (T : ℕ) (q k v : ℕ → ℕ → K) (t j : ℕ) : K :=
  ∑ s ∈ range T, A.weights q k (j / A.headDim) t s * v s (j / A.headDim / A.groups * A.headDim + j % A.headDim)

/-- The row that reaches each layer of an OPT decoder layer; `normFirst` is the option `do_layer_norm_before`. -/
structure OptRows (K : Type*) where
  normed : ℕ → ℕ → K
  context : ℕ → ℕ → K
  hidden : ℕ → ℕ → K
  normed2 : ℕ → ℕ → K
  activated : ℕ → ℕ → K
  output : ℕ → ℕ → K

/-- An OPT decoder layer. -/
def optRows (A : Attention K) (act : K → K) (normFirst : Bool) (T : ℕ) (ops : OptName → Op K) (x : ℕ → ℕ → K) : OptRows K :=
  let normed := fun t => if normFirst then opRow (ops .attnNorm) (x t) else x t
  let context := A.heads T (fun t => opRow (ops .q) (normed t)) (fun t => opRow (ops .k) (normed t)) (fun t => opRow (ops .v) (normed t))
  let added := fun t c => x t c + opRow (ops .out) (context t) c
  let hidden := fun t => if normFirst then added t else opRow (ops .attnNorm) (added t)
  let normed2 := fun t => if normFirst then opRow (ops .finalNorm) (hidden t) else hidden t
  let activated := fun t j => act (opRow (ops .fc1) (normed2 t) j)
  let added2 := fun t c => hidden t c + opRow (ops .fc2) (activated t) c
  ⟨normed, context, hidden, normed2, activated, fun t => if normFirst then added2 t else opRow (ops .finalNorm) (added2 t)⟩

/-- The input of each linear layer of an OPT decoder layer. -/
def OptRows.input (r : OptRows K) : OptName → ℕ → ℕ → K
  | .q | .k | .v => r.normed
  | .out => r.context
  | .fc1 => r.normed2
  | .fc2 => r.activated
  | _ => fun _ _ => 0

/-- The rows of a Llama decoder layer. -/
structure LlamaRows (K : Type*) where
  normed : ℕ → ℕ → K
  context : ℕ → ℕ → K
  normed2 : ℕ → ℕ → K
  gated : ℕ → ℕ → K
  output : ℕ → ℕ → K

/-- A Llama decoder layer. -/
def llamaRows (A : Attention K) (act : K → K) (T : ℕ) (ops : LlamaName → Op K) (x : ℕ → ℕ → K) : LlamaRows K :=
  let normed := fun t => opRow (ops .inputNorm) (x t)
  let context := A.heads T (fun t => opRow (ops .q) (normed t)) (fun t => opRow (ops .k) (normed t)) (fun t => opRow (ops .v) (normed t))
  let hidden := fun t c => x t c + opRow (ops .o) (context t) c
  let normed2 := fun t => opRow (ops .postNorm) (hidden t)
  let gated := fun t j => act (opRow (ops .gate) (normed2 t) j) * opRow (ops .up) (normed2 t) j
  ⟨normed, context, normed2, gated, fun t c => hidden t c + opRow (ops .down) (gated t) c⟩

/-- The input of each linear layer of a Llama decoder layer. -/
def LlamaRows.input (r : LlamaRows K) : LlamaName → ℕ → ℕ → K
  | .q | .k | .v => r.normed
  | .o => r.context
  | .gate | .up => r.normed2
  | .down => r.gated
  | _ => fun _ _ => 0

end Brevitas.Spec
