import Mathlib.Data.List.Basic
import Mathlib.Logic.Function.Basic

/-!
# The output of a quantised model: `src/brevitas/graph/standardize.py`, `DisableLastReturnQuantTensor`

The last step of `quantize` (src/brevitas/graph/quantize.py:352). A graph is a list of nodes in execution order; modules are numbered, and the same module can be called by
several nodes.
-/

namespace Brevitas.LastReturn

/-- `node.op` and what is called. Functions, methods and attributes are one case: the transform does not look at them. -/
inductive Op where
  | placeholder
  | module (m : ℕ)
  | function
  | output
deriving DecidableEq, Repr

/-- A node: what it does and the nodes whose values it reads. -/
structure Node where
  op : Op
  args : List ℕ

/-- A graph module. `returnQuantTensor m` is the attribute `return_quant_tensor` of module `m`, if it has one. -/
structure Graph where
  nodes : List Node
  returnQuantTensor : ℕ → Option Bool

/-- `len(node.users)`: the number of nodes that read the value. -/
def Graph.users (g : Graph) (i : ℕ) : ℕ := g.nodes.countP fun n => i ∈ n.args

/-- The condition, standardize.py:128-131. -/
def Graph.qualifies (g : Graph) (i : ℕ) : Bool :=
  match (g.nodes[i]?).map Node.op with
  | some (.module m) => g.users i = 1 && g.returnQuantTensor m = some true
  | _ => false

/-- The loop over `reversed(graph_model.graph.nodes)`, standardize.py:127-133, among the first nodes: the node that it stops at. -/
def Graph.last (g : Graph) : ℕ → Option ℕ
  | 0 => none
  | i + 1 => if g.qualifies i then some i else g.last i

/-- `DisableLastReturnQuantTensor.apply`, standardize.py:126-134. -/
def Graph.disableLast (g : Graph) : Graph :=
  match g.last g.nodes.length with
  | none => g
  | some i =>
    match (g.nodes[i]?).map Node.op with
    | some (.module m) => { g with returnQuantTensor := Function.update g.returnQuantTensor m (some false) }
    | _ => g

end Brevitas.LastReturn
