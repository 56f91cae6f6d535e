import Verif.Model.LastReturn

/-!
# Which values of a graph can be quant tensors

Inputs are plain tensors. A layer with `return_quant_tensor = False` returns a plain tensor (src/brevitas/nn/mixin/base.py:99-104); with `True` it can return a quant tensor. Other
modules and functions return a quant tensor only if they are given one. Recurrent stacks, which return quant tensors without having that attribute, are left out.
-/

namespace Brevitas.LastReturn

/-- A run of the graph in which the nodes of `quant` return quant tensors. -/
def Graph.Run (g : Graph) (quant : ℕ → Prop) : Prop :=
  ∀ (i : ℕ) (n : Node), g.nodes[i]? = some n → quant i →
    match n.op with
    | .placeholder => False
    | .module m => g.returnQuantTensor m = some true ∨ (g.returnQuantTensor m = none ∧ ∃ a ∈ n.args, quant a)
    | .function => ∃ a ∈ n.args, quant a
    | .output => ∃ a ∈ n.args, quant a

/-- Nodes read values of nodes before them. -/
def Graph.Ordered (g : Graph) : Prop := ∀ (i : ℕ) (n : Node), g.nodes[i]? = some n → ∀ a ∈ n.args, a < i

/-- The node calls a layer that returns quant tensors. -/
def Graph.Quantises (g : Graph) (i : ℕ) : Prop := ∃ n m, g.nodes[i]? = some n ∧ n.op = .module m ∧ g.returnQuantTensor m = some true

/-- The node returns what it is given: a function, the output, or a module that has nothing to say about it. -/
def Graph.PassesOn (g : Graph) (n : Node) : Prop :=
  match n.op with
  | .placeholder => False
  | .module m => g.returnQuantTensor m = none
  | .function => True
  | .output => True

/-- A quant tensor returned by node `s` can arrive at node `i`. -/
inductive Graph.Arrives (g : Graph) (s : ℕ) : ℕ → Prop
  | here (h : g.Quantises s) : Graph.Arrives g s s
  | pass {i a : ℕ} {n : Node} (hi : g.nodes[i]? = some n) (hp : g.PassesOn n) (ha : a ∈ n.args) (h : Graph.Arrives g s a) : Graph.Arrives g s i

/-- A chain: the input, then calls that each read the value before, then the output. -/
def Graph.IsChain (g : Graph) : Prop :=
  ∃ ops : List Op, (∀ o ∈ ops, o ≠ .placeholder ∧ o ≠ .output) ∧
    g.nodes = ⟨.placeholder, []⟩ :: ((ops ++ [Op.output]).mapIdx fun i o => ⟨o, [i]⟩)

end Brevitas.LastReturn
