import Verif.Model.Awq
import Mathlib.Data.List.Basic

/-!
# Merging the affine parameters of layer norms (`src/brevitas_examples/llm/llm_quant/ln_affine_merge.py`)

The weights of linear layers and norms are functions of indices, as in `Verif.Model.Awq`.  Targets of modules are numbers, and each target is another module.
-/

namespace Brevitas.LnMerge

open Finset Brevitas.Awq

variable {K : Type*} [Field K] {V : Type*}

/-- A module: a layer norm, which has parameters if it is `affine`; a linear layer; or another, which may be scale invariant. -/
inductive Mod (K V : Type*)
  | norm (affine : Bool) (n : Norm K)
  | linear (l : Linear K)
  | other (scaleInvariant : Bool) (f : V → V)

/-- A node of the graph: a module called on one earlier node; the `size` of one; or another node, such as an input, a function or the output, with the nodes it reads. -/
inductive Node (V : Type*)
  | module (target arg : ℕ)
  | size (arg : ℕ)
  | other (reshaping : Bool) (f : List V → V) (args : List ℕ)

/-- The nodes a node reads. -/
def Node.args : Node V → List ℕ
  | .module _ a => [a]
  | .size a => [a]
  | .other _ _ as => as

/-- `node.users`, in the order of the graph. -/
def users (g : List (Node V)) (i : ℕ) : List ℕ :=
  (List.range g.length).filter fun u => match g[u]? with
    | none => false
    | some n => decide (i ∈ n.args)

/-- What happens instead of a result. -/
inductive Failure
  | raised
  | diverges
  deriving DecidableEq

/-- `_is_reshaping_op(next) or _is_scale_invariant_module(graph_model, next)`, ln_affine_merge.py:52. -/
def passes (g : List (Node V)) (mods : ℕ → Mod K V) (u : ℕ) : Bool :=
  match g[u]? with
  | some (.module t _) => match mods t with
    | .other inv _ => inv
    | _ => false
  | some (.other reshaping _ _) => reshaping
  | _ => false

/-- The loop of ln_affine_merge.py:52-53 for user `u` of node `i`: it goes on with the node after `i`, always the same. -/
def skip (g : List (Node V)) (mods : ℕ → Mod K V) (i u : ℕ) : Except Failure ℕ :=
  if passes g mods u then
    if passes g mods (i + 1) then .error .diverges else .ok (i + 1)
  else .ok u

/-- The modules, the targets of norms whose bias has been divided, and for every norm whether it was merged. -/
structure State (K V : Type*) where
  mods : ℕ → Mod K V
  scaled : List ℕ
  merged : ℕ → Option Bool

/-- `merged_dict[module] &= merged` or `merged_dict[module] = merged`, ln_affine_merge.py:64-67. -/
def setMerged (m : ℕ → Option Bool) (t : ℕ) (b : Bool) : ℕ → Option Bool :=
  Function.update m t (some (match m t with
    | none => b
    | some b' => b' && b))

/-- The bias of the norm after ln_affine_merge.py:31-32. -/
def lnBias (weight bias : ℕ → K) (scaleBias : Bool) : ℕ → K := if scaleBias then fun c => bias c / weight c else bias

/-- The linear layer after ln_affine_merge.py:34-39 and `replace_bias` (15-21): the weight is multiplied, and the bias becomes the output for the bias of the
norm. -/
def mergeLinear (l : Linear K) (weight bias : ℕ → K) : Linear K :=
  let w := fun o i => l.weight o i * weight i
  { l with weight := w, bias := some fun o => (∑ i ∈ range l.inFeatures, w o i * bias i) + (l.bias.map (· o)).getD 0 }

/-- `_merge_ln` and what follows, ln_affine_merge.py:24-40 and 55-67, for norm `t` and module `t'`.  A norm without bias or of another size raises
(a norm of one feature, which would be broadcast, is not considered). -/
def mergeInto (t t' : ℕ) (st : State K V) : Except Failure (State K V) :=
  match st.mods t, st.mods t' with
  | .norm true n, .linear l =>
    match n.bias with
    | none => .error .raised
    | some b =>
      if n.dim = l.inFeatures then
        let b := lnBias n.weight b (decide (t ∉ st.scaled))
        .ok { mods := Function.update (Function.update st.mods t (.norm true { n with bias := some b })) t' (.linear (mergeLinear l n.weight b))
              scaled := t :: st.scaled
              merged := setMerged st.merged t true }
      else .error .raised
  | _, _ => .ok { st with merged := setMerged st.merged t false }

/-- What is done for user `u` of the call of norm `t` at node `i`, ln_affine_merge.py:51-73. -/
def mergeUser (g : List (Node V)) (i t u : ℕ) (st : State K V) : Except Failure (State K V) :=
  match skip g st.mods i u with
  | .error e => .error e
  | .ok next =>
    match g[next]? with
    | some (.module t' _) => mergeInto t t' st
    | some (.size _) => .ok st
    | _ => .error .raised

/-- Node `i` with each of its users if it is the call of a norm, ln_affine_merge.py:48-51. -/
def workAt (g : List (Node V)) (mods : ℕ → Mod K V) (i : ℕ) : List (ℕ × ℕ × ℕ) :=
  match g[i]? with
  | some (.module t _) => match mods t with
    | .norm _ _ => (users g i).map fun u => (i, t, u)
    | _ => []
  | _ => []

/-- The calls of norms with each of their users, in the order of the two loops, ln_affine_merge.py:47-51: the node, its target and the
user. -/
def work (g : List (Node V)) (mods : ℕ → Mod K V) : List (ℕ × ℕ × ℕ) := (List.range g.length).flatMap (workAt g mods)

/-- The two loops. -/
def mergeAll (g : List (Node V)) : List (ℕ × ℕ × ℕ) → State K V → Except Failure (State K V)
  | [], st => .ok st
  | (i, t, u) :: ws, st =>
    match mergeUser g i t u st with
    | .error e => .error e
    | .ok st => mergeAll g ws st

/-- A norm that was merged becomes one without effect, ln_affine_merge.py:77-78. -/
def reset (st : State K V) (t : ℕ) : Mod K V :=
  match st.merged t, st.mods t with
  | some true, .norm a n => .norm a { n with weight := fun _ => 1, bias := n.bias.map fun _ _ => 0 }
  | _, m => m

/-- `merge_layernorm_affine_params`, ln_affine_merge.py:43-82: the modules afterwards.  It raises if a norm was merged into some users only. -/
def merge (g : List (Node V)) (mods : ℕ → Mod K V) : Except Failure (ℕ → Mod K V) :=
  match mergeAll g (work g mods) ⟨mods, [], fun _ => none⟩ with
  | .error e => .error e
  | .ok st => if (work g mods).any fun w => decide (st.merged w.2.1 = some false) then .error .raised else .ok (reset st)

end Brevitas.LnMerge
